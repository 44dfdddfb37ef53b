import Verif.Model.PossFloat
import Verif.SpecPossFloat
import Verif.Lemmas.BigNumber
import Mathlib.Tactic.Ring
import Mathlib.Tactic.FieldSimp
import Mathlib.Tactic.Linarith
import Mathlib.Tactic.Positivity

/-! # `BigNumber` in floating point: the error of every operation -/

set_option exponentiation.threshold 400

namespace Ms
open Spec BigNumber

theorem rho_pos : 0 < rho := by unfold rho; norm_num
theorem one_le_rho : 1 ≤ rho := by unfold rho; norm_num
theorem rho_pow_pos (K : Nat) : 0 < rho ^ K := pow_pos rho_pos K
theorem one_le_rho_pow (K : Nat) : 1 ≤ rho ^ K := one_le_pow₀ one_le_rho

theorem rho_pow_le : ∀ (K : Nat), K ≤ 2 ^ 51 → rho ^ K ≤ 1 + K / 2 ^ 51 := by
  intro K
  induction K with
  | zero => intro _; norm_num
  | succ K ih =>
    intro h
    have h1 := ih (by omega)
    rw [pow_succ]
    have hK : (K : ℚ) ≤ 2 ^ 51 := by
      have : K ≤ 2 ^ 51 := by omega
      exact_mod_cast this
    calc rho ^ K * rho ≤ (1 + K / 2 ^ 51) * rho := mul_le_mul_of_nonneg_right h1 rho_pos.le
      _ ≤ 1 + ((K + 1 : Nat) : ℚ) / 2 ^ 51 := by
        unfold rho
        push_cast
        rw [← sub_nonneg]
        have : (1 + ((K : ℚ) + 1) / 2 ^ 51) - (1 + (K : ℚ) / 2 ^ 51) * (1 + 1 / 2 ^ 52) = (1 - K / 2 ^ 51) / 2 ^ 52 := by ring
        rw [this]
        apply div_nonneg _ (by norm_num)
        rw [sub_nonneg, div_le_one (by norm_num)]
        exact hK

theorem rho_pow_le_two {K : Nat} (h : K ≤ 2 ^ 51) : rho ^ K ≤ 2 := by
  have h1 := rho_pow_le K h
  have hK : (K : ℚ) / 2 ^ 51 ≤ 1 := by
    rw [div_le_one (by norm_num)]
    exact_mod_cast h
  linarith

namespace Spec.Within

theorem refl (v : ℚ) : Within 0 v v := by constructor <;> simp

theorem mono {K L : Nat} {v x : ℚ} (h : Within K v x) (hv : 0 ≤ v) (hKL : K ≤ L) : Within L v x := by
  have hp : rho ^ K ≤ rho ^ L := pow_le_pow_right₀ one_le_rho hKL
  have hx : 0 ≤ x := by
    by_contra hc
    have := mul_neg_of_neg_of_pos (not_le.mp hc) (rho_pow_pos K)
    linarith [h.1]
  exact ⟨h.1.trans (mul_le_mul_of_nonneg_left hp hx), h.2.trans (mul_le_mul_of_nonneg_left hp hv)⟩

theorem nonneg {K : Nat} {v x : ℚ} (h : Within K v x) (hv : 0 ≤ v) : 0 ≤ x := by
  by_contra hc
  have := mul_neg_of_neg_of_pos (not_le.mp hc) (rho_pow_pos K)
  linarith [h.1]

theorem pos {K : Nat} {v x : ℚ} (h : Within K v x) (hv : 0 < v) : 0 < x := by
  by_contra hc
  have := mul_nonpos_of_nonpos_of_nonneg (not_lt.mp hc) (rho_pow_pos K).le
  linarith [h.1]

theorem eq_zero {K : Nat} {x : ℚ} (h : Within K 0 x) : x = 0 := by
  apply le_antisymm
  · have := h.2; rwa [zero_mul] at this
  · exact h.nonneg le_rfl

theorem zero (K : Nat) : Within K 0 0 := by constructor <;> simp

theorem mul {K L : Nat} {v x w y : ℚ} (h : Within K v x) (h' : Within L w y) (hv : 0 ≤ v) (hw : 0 ≤ w) :
    Within (K + L) (v * w) (x * y) := by
  have hx := h.nonneg hv
  have hy := h'.nonneg hw
  constructor
  · calc v * w ≤ (x * rho ^ K) * (y * rho ^ L) := mul_le_mul h.1 h'.1 hw (mul_nonneg hx (rho_pow_pos K).le)
      _ = x * y * rho ^ (K + L) := by rw [pow_add]; ring
  · calc x * y ≤ (v * rho ^ K) * (w * rho ^ L) := mul_le_mul h.2 h'.2 hy (mul_nonneg hv (rho_pow_pos K).le)
      _ = v * w * rho ^ (K + L) := by rw [pow_add]; ring

theorem div {K L : Nat} {v x w y : ℚ} (h : Within K v x) (h' : Within L w y) (hv : 0 ≤ v) (hw : 0 < w) :
    Within (K + L) (v / w) (x / y) := by
  have hx := h.nonneg hv
  have hy := h'.pos hw
  constructor
  · rw [div_le_iff₀ hw]
    calc v ≤ x * rho ^ K := h.1
      _ = x / y * rho ^ K * y := by field_simp
      _ ≤ x / y * rho ^ K * (w * rho ^ L) := mul_le_mul_of_nonneg_left h'.2
          (mul_nonneg (div_nonneg hx hy.le) (rho_pow_pos K).le)
      _ = x / y * rho ^ (K + L) * w := by rw [pow_add]; ring
  · rw [div_le_iff₀ hy]
    calc x ≤ v * rho ^ K := h.2
      _ = v / w * rho ^ K * w := by field_simp
      _ ≤ v / w * rho ^ K * (y * rho ^ L) := mul_le_mul_of_nonneg_left h'.1
          (mul_nonneg (div_nonneg hv hw.le) (rho_pow_pos K).le)
      _ = v / w * rho ^ (K + L) * y := by rw [pow_add]; ring

theorem add {K : Nat} {v x w y : ℚ} (h : Within K v x) (h' : Within K w y) : Within K (v + w) (x + y) :=
  ⟨by rw [add_mul]; exact add_le_add h.1 h'.1, by rw [add_mul]; exact add_le_add h.2 h'.2⟩

theorem scale {K : Nat} {v x : ℚ} (h : Within K v x) {c : ℚ} (hc : 0 ≤ c) : Within K (v * c) (x * c) :=
  ⟨by rw [mul_right_comm]; exact mul_le_mul_of_nonneg_right h.1 hc,
    by rw [mul_right_comm]; exact mul_le_mul_of_nonneg_right h.2 hc⟩

/-- the error in the usual form -/
theorem err {K : Nat} {v x : ℚ} (h : Within K v x) (hv : 0 ≤ v) (hK : K ≤ 2 ^ 51) : |x - v| ≤ v * (K / 2 ^ 51) := by
  have h1 := rho_pow_le K hK
  have hp := rho_pow_pos K
  rw [abs_le]
  constructor
  · have hx := h.1
    have hK0 : (0 : ℚ) ≤ K / 2 ^ 51 := by positivity
    have h2 : v ≤ x * (1 + K / 2 ^ 51) := hx.trans (mul_le_mul_of_nonneg_left h1 (h.nonneg hv))
    by_cases hxv : x ≤ v
    · have : x * (K / 2 ^ 51) ≤ v * (K / 2 ^ 51) := mul_le_mul_of_nonneg_right hxv hK0
      linarith
    · have := mul_nonneg hv hK0
      linarith [not_le.mp hxv]
  · have := h.2.trans (mul_le_mul_of_nonneg_left h1 hv)
    linarith

theorem le_two {K : Nat} {v x : ℚ} (h : Within K v x) (hv : 0 ≤ v) (hK : K ≤ 2 ^ 51) : x ≤ 2 * v ∧ v ≤ 2 * x := by
  have h2 := rho_pow_le_two hK
  have := mul_le_mul_of_nonneg_left h2 hv
  have := mul_le_mul_of_nonneg_left h2 (h.nonneg hv)
  exact ⟨by linarith [h.2], by linarith [h.1]⟩

end Spec.Within

/-- far from underflow and overflow -/
def Mid (v : ℚ) : Prop := v = 0 ∨ 1 / 10 ^ 299 ≤ v ∧ v ≤ 10 ^ 299

theorem Mid.nonneg {v : ℚ} (h : Mid v) : 0 ≤ v := by
  rcases h with h | h
  · rw [h]
  · exact le_trans (by norm_num) h.1

theorem Spec.Rounds.within {fl : ℚ → ℚ} (hf : Rounds fl) {K : Nat} {v x : ℚ} (h : Within K v x) (hv : Mid v)
    (hK : K ≤ 2 ^ 51) : Within (K + 1) v (fl x) := by
  rcases hv with rfl | ⟨h1, h2⟩
  · rw [h.eq_zero, hf.zero]; exact .zero _
  · have hv0 : 0 ≤ v := le_trans (by norm_num) h1
    have hx := h.le_two hv0 hK
    have hn := hf.near x (by
      have : (1 : ℚ) / 10 ^ 300 ≤ (1 / 10 ^ 299) / 2 := by norm_num
      linarith) (by
      have : (2 : ℚ) * 10 ^ 299 ≤ 10 ^ 300 := by norm_num
      linarith)
    rw [abs_le] at hn
    have hx0 := h.nonneg hv0
    have hu : x / 2 ^ 53 = x * (1 / 2 ^ 53) := by ring
    constructor
    · have : x ≤ fl x * rho := by
        have h3 : x * (1 - 1 / 2 ^ 53) ≤ fl x := by linarith
        calc x ≤ x * ((1 - 1 / 2 ^ 53) * rho) := le_mul_of_one_le_right hx0 (by unfold rho; norm_num)
          _ = x * (1 - 1 / 2 ^ 53) * rho := by ring
          _ ≤ _ := mul_le_mul_of_nonneg_right h3 rho_pos.le
      calc v ≤ x * rho ^ K := h.1
        _ ≤ fl x * rho * rho ^ K := mul_le_mul_of_nonneg_right this (rho_pow_pos K).le
        _ = _ := by rw [pow_succ]; ring
    · calc fl x ≤ x * rho := by
            have : x * (1 + 1 / 2 ^ 53) ≤ x * rho := mul_le_mul_of_nonneg_left (by unfold rho; norm_num) hx0
            linarith
        _ ≤ v * rho ^ K * rho := mul_le_mul_of_nonneg_right h.2 rho_pos.le
        _ = _ := by rw [pow_succ]; ring

theorem Spec.Rounds.lower {fl : ℚ → ℚ} (hf : Rounds fl) : ∀ (d K : Nat) (v x : ℚ), Within K v x →
    (v = 0 ∨ 1 / 10 ^ 299 ≤ v / 10 ^ d ∧ v ≤ 10 ^ 299) → K + d ≤ 2 ^ 51 → Within (K + d) (v / 10 ^ d) (lowerF fl d x) := by
  intro d
  induction d with
  | zero => intro K v x h _ _; simpa [lowerF] using h
  | succ d ih =>
    intro K v x h hv hK
    unfold lowerF
    have h10 : Within K (v / 10) (x / 10) := by
      have := h.scale (c := 1 / 10) (by norm_num)
      rwa [mul_one_div, mul_one_div] at this
    have e : v / 10 / 10 ^ d = v / 10 ^ (d + 1) := by rw [pow_succ, div_div, mul_comm]
    have hM : v / 10 = 0 ∨ 1 / 10 ^ 299 ≤ v / 10 / 10 ^ d ∧ v / 10 ≤ 10 ^ 299 := by
      rcases hv with rfl | ⟨h1, h2⟩
      · left; norm_num
      · right
        refine ⟨by rw [e]; exact h1, ?_⟩
        have : (10 : ℚ) ^ 299 / 10 ≤ 10 ^ 299 := by norm_num
        have : v / 10 ≤ 10 ^ 299 / 10 := by linarith
        linarith
    have hM2 : Mid (v / 10) := by
      rcases hM with h1 | ⟨h1, h2⟩
      · exact .inl h1
      · refine .inr ⟨h1.trans ?_, h2⟩
        have hv0 : 0 ≤ v / 10 := by
          have : 0 < v / 10 / 10 ^ d := lt_of_lt_of_le (by norm_num) h1
          have hp : (0 : ℚ) < 10 ^ d := by positivity
          by_contra hc
          exact absurd this (not_lt.mpr (div_nonpos_of_nonpos_of_nonneg (not_le.mp hc).le hp.le))
        exact div_le_self hv0 (one_le_pow₀ (by norm_num))
    have := ih (K + 1) (v / 10) (fl (x / 10)) (hf.within h10 hM2 (by omega)) hM (by omega)
    rw [e] at this
    rwa [show K + 1 + d = K + (d + 1) by omega] at this

theorem Spec.Rounds.raise {fl : ℚ → ℚ} (hf : Rounds fl) : ∀ (d K : Nat) (v x : ℚ), Within K v x →
    (v = 0 ∨ 1 / 10 ^ 299 ≤ v ∧ v * 10 ^ d ≤ 10 ^ 299) → K + d ≤ 2 ^ 51 → Within (K + d) (v * 10 ^ d) (raiseF fl d x) := by
  intro d
  induction d with
  | zero => intro K v x h _ _; simpa [raiseF] using h
  | succ d ih =>
    intro K v x h hv hK
    unfold raiseF
    have h10 : Within K (v * 10) (x * 10) := h.scale (c := 10) (by norm_num)
    have e : v * 10 * 10 ^ d = v * 10 ^ (d + 1) := by rw [pow_succ]; ring
    have hM : v * 10 = 0 ∨ 1 / 10 ^ 299 ≤ v * 10 ∧ v * 10 * 10 ^ d ≤ 10 ^ 299 := by
      rcases hv with rfl | ⟨h1, h2⟩
      · left; norm_num
      · right
        refine ⟨?_, by rw [e]; exact h2⟩
        have : (0 : ℚ) ≤ v := le_trans (by norm_num) h1
        linarith
    have hM2 : Mid (v * 10) := by
      rcases hM with h1 | ⟨h1, h2⟩
      · exact .inl h1
      · refine .inr ⟨h1, le_trans ?_ h2⟩
        exact le_mul_of_one_le_right (le_trans (by norm_num) h1) (one_le_pow₀ (by norm_num))
    have := ih (K + 1) (v * 10) (fl (x * 10)) (hf.within h10 hM2 (by omega)) hM (by omega)
    rw [e] at this
    rwa [show K + 1 + d = K + (d + 1) by omega] at this

/-- The floating point number `n` stands for the exact value `v`, up to `K` roundings; its exponent is at most `e`. -/
structure Rel (K e : Nat) (v : ℚ) (n : BigNumber) : Prop where
  b0 : 0 ≤ n.b
  be : n.b ≤ e
  a10 : n.a < 10
  close : Within K (v / 10 ^ n.b) n.a
  v01 : v = 0 ∨ 1 ≤ v

theorem Rel.v0 {K e : Nat} {v : ℚ} {n : BigNumber} (h : Rel K e v n) : 0 ≤ v := by
  rcases h.v01 with h | h <;> linarith

theorem Rel.mono {K L e f : Nat} {v : ℚ} {n : BigNumber} (h : Rel K e v n) (hK : K ≤ L) (he : e ≤ f) : Rel L f v n :=
  ⟨h.b0, by have := h.be; omega, h.a10, h.close.mono (div_nonneg h.v0 (zpow_nonneg (by norm_num) _)) hK, h.v01⟩

theorem rel_zero (K e : Nat) {b : Int} (h0 : 0 ≤ b) (hb : b ≤ e) : Rel K e 0 ⟨0, b⟩ :=
  ⟨h0, hb, by norm_num, by rw [zero_div]; exact .zero _, .inl rfl⟩

theorem rel_one (K e : Nat) : Rel K e 1 ⟨1, 0⟩ :=
  ⟨le_rfl, by simp, by norm_num, by simpa using (Within.refl 1).mono (by norm_num) (Nat.zero_le K), .inr le_rfl⟩

theorem Rel.value {K e : Nat} {v : ℚ} {n : BigNumber} (h : Rel K e v n) : Within K v n.value := by
  have hp : (0 : ℚ) < 10 ^ n.b := zpow_pos (by norm_num) _
  have := h.close.scale hp.le
  rwa [div_mul_cancel₀ _ hp.ne'] at this

/-- the mantissa is far from underflow and overflow -/
theorem mid_div {e : Nat} {v : ℚ} {b : Int} (hv : v = 0 ∨ 1 ≤ v) (h0 : 0 ≤ b) (hb : b ≤ e) (he : e ≤ 280)
    (hV : v ≤ 10 ^ 280) : Mid (v / 10 ^ b) := by
  rcases hv with rfl | hv
  · left; simp
  · right
    obtain ⟨k, rfl⟩ := Int.eq_ofNat_of_zero_le h0
    rw [zpow_natCast]
    have hk : k ≤ 280 := by omega
    have hp : (0 : ℚ) < 10 ^ k := by positivity
    have h1 : (10 : ℚ) ^ k ≤ 10 ^ 280 := pow_le_pow_right₀ (by norm_num) hk
    constructor
    · rw [le_div_iff₀ hp]
      calc 1 / 10 ^ 299 * 10 ^ k ≤ 1 / 10 ^ 299 * (10 : ℚ) ^ 280 := mul_le_mul_of_nonneg_left h1 (by norm_num)
        _ ≤ 1 := by norm_num
        _ ≤ v := hv
    · calc v / 10 ^ k ≤ v := div_le_self (by linarith) (one_le_pow₀ (by norm_num))
        _ ≤ 10 ^ 280 := hV
        _ ≤ 10 ^ 299 := by norm_num

theorem lt_five_pow_fuel (q : ℚ) : q < 10 * 5 ^ fuelFor q := by
  have h1 : q ≤ (q.num.natAbs : ℚ) := by
    by_cases h : 0 ≤ q
    · have hn : 0 ≤ q.num := Rat.num_nonneg.mpr h
      have e : ((q.num.natAbs : ℕ) : ℚ) = (q.num : ℚ) := by
        have : ((q.num.natAbs : ℕ) : ℤ) = q.num := Int.natAbs_of_nonneg hn
        rw [← Int.cast_natCast, this]
      rw [e]
      have hd : (1 : ℚ) ≤ q.den := by exact_mod_cast q.den_pos
      calc q = q.num / q.den := (Rat.num_div_den q).symm
        _ ≤ q.num / 1 := by
          apply div_le_div_of_nonneg_left _ (by norm_num) hd
          exact_mod_cast hn
        _ = q.num := by simp
    · have : (0 : ℚ) ≤ (q.num.natAbs : ℚ) := by positivity
      linarith
  have h2 : q.num.natAbs < 5 ^ q.num.natAbs := Nat.lt_pow_self (by norm_num)
  have h3 : (q.num.natAbs : ℚ) < 5 ^ q.num.natAbs := by exact_mod_cast h2
  have h4 : (0 : ℚ) < 5 ^ q.num.natAbs := by positivity
  unfold fuelFor
  linarith

theorem Spec.Rounds.shrink {fl : ℚ → ℚ} (hf : Rounds fl) {e : Nat} (he : e ≤ 280) {v : ℚ} (hv : v = 0 ∨ 1 ≤ v)
    (hV : 4 * v ≤ 10 ^ e) : ∀ (fuel K : Nat) (n : BigNumber), 0 ≤ n.b → n.b ≤ e → Within K (v / 10 ^ n.b) n.a →
    K + (e - n.b).toNat ≤ 2 ^ 51 → n.a < 10 * 5 ^ fuel →
    ∃ m, shrinkF fl fuel n = some m ∧ m.a < 10 ∧ n.b ≤ m.b ∧ m.b ≤ e ∧
      Within (K + (m.b - n.b).toNat) (v / 10 ^ m.b) m.a := by
  have hv0 : 0 ≤ v := by rcases hv with h | h <;> linarith
  have hV2 : v ≤ 10 ^ 280 := by
    have : (10 : ℚ) ^ e ≤ 10 ^ 280 := pow_le_pow_right₀ (by norm_num) he
    linarith
  intro fuel
  induction fuel with
  | zero =>
    intro K n h0 hb hw hK ha
    unfold shrinkF
    rw [if_neg (by simpa using ha)]
    exact ⟨n, rfl, by simpa using ha, le_rfl, hb, by simpa using hw⟩
  | succ fuel ih =>
    intro K n h0 hb hw hK ha
    unfold shrinkF
    by_cases h10 : n.a ≥ 10
    · rw [if_pos h10]
      have hp : (0 : ℚ) < 10 ^ n.b := zpow_pos (by norm_num) _
      have hvb : 0 ≤ v / 10 ^ n.b := div_nonneg hv0 hp.le
      have h2 := (hw.le_two hvb (by omega)).1
      -- the exponent has room
      have hroom : n.b + 1 ≤ e := by
        by_contra hc
        have hbe : n.b = e := by omega
        have h3 : 10 * (10 : ℚ) ^ n.b ≤ 2 * v := by
          have : (10 : ℚ) ≤ 2 * (v / 10 ^ n.b) := by linarith
          calc 10 * (10 : ℚ) ^ n.b ≤ 2 * (v / 10 ^ n.b) * 10 ^ n.b := mul_le_mul_of_nonneg_right this hp.le
            _ = 2 * v := by field_simp
        rw [hbe, zpow_natCast] at h3
        have : (0 : ℚ) < 10 ^ e := by positivity
        linarith
      have hd : v / 10 ^ (n.b + 1) = v / 10 ^ n.b / 10 := by
        rw [zpow_add₀ (by norm_num), zpow_one, div_div]
      have hw10 : Within K (v / 10 ^ (n.b + 1)) (n.a / 10) := by
        have := hw.scale (c := 1 / 10) (by norm_num)
        rwa [mul_one_div, mul_one_div, ← hd] at this
      have hM := mid_div (b := n.b + 1) hv (by omega) hroom he hV2
      have hr := hf.within hw10 hM (by omega)
      have hlt : fl (n.a / 10) < 10 * 5 ^ fuel := by
        have hfx := hf.within (Within.refl (n.a / 10)) (by
          right
          constructor
          · calc (1 : ℚ) / 10 ^ 299 ≤ 1 := by norm_num
              _ ≤ n.a / 10 := by rw [le_div_iff₀ (by norm_num)]; linarith
          · have h5 : v / 10 ^ n.b ≤ 10 ^ 280 := by
              have hb1 : (1 : ℚ) ≤ 10 ^ n.b := one_le_zpow₀ (by norm_num) h0
              exact (div_le_self hv0 hb1).trans hV2
            have : (2 : ℚ) * 10 ^ 280 ≤ 10 ^ 299 := by norm_num
            have h6 : n.a / 10 ≤ n.a := by linarith
            linarith) (by omega)
        have := (hfx.le_two (by linarith) (by norm_num)).1
        rw [pow_succ] at ha
        linarith
      obtain ⟨m, m1, m2, m3, m4, m5⟩ := ih (K + 1) ⟨fl (n.a / 10), n.b + 1⟩ (by simp only; omega) hroom hr
        (by simp only; omega) hlt
      refine ⟨m, m1, m2, by simp only at m3; omega, m4, ?_⟩
      simp only at m3 m5
      rwa [show K + (m.b - n.b).toNat = K + 1 + (m.b - (n.b + 1)).toNat by omega]
    · rw [if_neg h10]
      exact ⟨n, rfl, not_le.mp h10, le_rfl, hb, by simpa using hw⟩

theorem Spec.Rounds.becomeSmaller {fl : ℚ → ℚ} (hf : Rounds fl) {e : Nat} (he : e ≤ 280) {v : ℚ} (hv : v = 0 ∨ 1 ≤ v)
    (hV : 4 * v ≤ 10 ^ e) {t : ℚ} (ht : 10 ≤ t) (K : Nat) (n : BigNumber) (h0 : 0 ≤ n.b) (hb : n.b ≤ e)
    (hw : Within K (v / 10 ^ n.b) n.a) (hK : K + (e - n.b).toNat ≤ 2 ^ 51) :
    ∃ m, becomeSmallerF fl n t = some m ∧ m.a < t ∧ n.b ≤ m.b ∧ m.b ≤ e ∧
      Within (K + (m.b - n.b).toNat) (v / 10 ^ m.b) m.a := by
  unfold becomeSmallerF
  by_cases h : n.a < t
  · rw [if_pos h]; exact ⟨n, rfl, h, le_rfl, hb, by simpa using hw⟩
  · rw [if_neg h]
    obtain ⟨m, m1, m2, m3⟩ := hf.shrink he hv hV (fuelFor n.a) K n h0 hb hw hK (lt_five_pow_fuel _)
    exact ⟨m, m1, by linarith, m3⟩

theorem v01_add {v w : ℚ} (hv : v = 0 ∨ 1 ≤ v) (hw : w = 0 ∨ 1 ≤ w) : v + w = 0 ∨ 1 ≤ v + w := by
  rcases hv with rfl | hv
  · rwa [zero_add]
  · right; rcases hw with rfl | hw <;> linarith

theorem v01_mul {v w : ℚ} (hv : v = 0 ∨ 1 ≤ v) (hw : w = 0 ∨ 1 ≤ w) : v * w = 0 ∨ 1 ≤ v * w := by
  rcases hv with rfl | hv
  · left; ring
  · rcases hw with rfl | hw
    · left; ring
    · right; nlinarith

theorem v01_nat (k : Nat) : (k : ℚ) = 0 ∨ 1 ≤ (k : ℚ) := by
  rcases Nat.eq_zero_or_pos k with h | h
  · left; exact_mod_cast h
  · right; exact_mod_cast h

theorem v_le {e : Nat} (he : e ≤ 280) {v : ℚ} (hv : v = 0 ∨ 1 ≤ v) (hV : 4 * v ≤ 10 ^ e) : v ≤ 10 ^ 280 := by
  have hv0 : 0 ≤ v := by rcases hv with h | h <;> linarith
  have : (10 : ℚ) ^ e ≤ 10 ^ 280 := pow_le_pow_right₀ (by norm_num) he
  linarith

/-- `mul_big_number` -/
theorem Spec.Rounds.mul {fl : ℚ → ℚ} (hf : Rounds fl) {K L e1 e2 e : Nat} (he : e ≤ 280) {v w : ℚ} {n k : BigNumber}
    (hn : Rel K e1 v n) (hk : Rel L e2 w k) (h12 : e1 + e2 ≤ e) (hV : 4 * (v * w) ≤ 10 ^ e)
    (hK : K + L + 1 + e ≤ 2 ^ 51) :
    ∃ m, n.mulF fl k = some m ∧ Rel (K + L + 1 + e) e (v * w) m := by
  have hnb := hn.b0
  have hkb := hk.b0
  have hne := hn.be
  have hke := hk.be
  have hvw := v01_mul hn.v01 hk.v01
  have hp : ∀ b : Int, (0 : ℚ) < 10 ^ b := fun b => zpow_pos (by norm_num) _
  have hc := hn.close.mul hk.close (div_nonneg hn.v0 (hp _).le) (div_nonneg hk.v0 (hp _).le)
  rw [div_mul_div_comm, ← zpow_add₀ (by norm_num)] at hc
  have hM := mid_div (b := n.b + k.b) hvw (by omega) (by omega : n.b + k.b ≤ e) he (v_le he hvw hV)
  obtain ⟨m, m1, m2, m3, m4, m5⟩ := hf.becomeSmaller he hvw hV (le_refl 10) (K + L + 1) ⟨fl (n.a * k.a), n.b + k.b⟩
    (by simp only; omega) (by simp only; omega) (hf.within hc hM (by omega)) (by simp only; omega)
  simp only at m3 m5
  exact ⟨m, m1, by omega, m4, m2, m5.mono (div_nonneg (mul_nonneg hn.v0 hk.v0) (hp _).le) (by omega), hvw⟩

/-- `mul_usize` -/
theorem Spec.Rounds.mulUsize {fl : ℚ → ℚ} (hf : Rounds fl) {K e : Nat} (he : e ≤ 280) (he1 : 1 ≤ e) {v : ℚ} {n : BigNumber}
    (hn : Rel K e v n) {k : Nat} (hk : (k : ℚ) ≤ 10 ^ 280) (hV : 4 * (v * k) ≤ 10 ^ e) (hK : K + 2 + e ≤ 2 ^ 51) :
    ∃ m, n.mulUsizeF fl k = some m ∧ Rel (K + 2 + e) e (v * k) m := by
  unfold mulUsizeF
  by_cases h0 : k = 0
  · rw [if_pos h0, h0, Nat.cast_zero, mul_zero]
    exact ⟨_, rfl, rel_zero _ _ (by norm_num) (by omega)⟩
  rw [if_neg h0]
  have hk1 : (1 : ℚ) ≤ k := by exact_mod_cast Nat.pos_iff_ne_zero.mpr h0
  have hnb := hn.b0
  have hne := hn.be
  have hvw := v01_mul hn.v01 (v01_nat k)
  have hp : ∀ b : Int, (0 : ℚ) < 10 ^ b := fun b => zpow_pos (by norm_num) _
  have hkk := hf.within (Within.refl (k : ℚ)) (.inr ⟨le_trans (by norm_num) hk1, hk.trans (by norm_num)⟩) (by norm_num)
  have hc := hn.close.mul hkk (div_nonneg hn.v0 (hp _).le) (by linarith)
  rw [div_mul_eq_mul_div] at hc
  have hM := mid_div (b := n.b) hvw hnb hne he (v_le he hvw hV)
  obtain ⟨m, m1, m2, m3, m4, m5⟩ := hf.becomeSmaller he hvw hV (le_refl 10) (K + 2) ⟨fl (n.a * fl k), n.b⟩
    hnb hne (hf.within hc hM (by omega)) (by simp only; omega)
  simp only at m3 m5
  exact ⟨m, m1, by omega, m4, m2, m5.mono (div_nonneg (mul_nonneg hn.v0 (by linarith)) (hp _).le) (by omega), hvw⟩

/-- a mantissa brought to a higher exponent -/
theorem Spec.Rounds.align {fl : ℚ → ℚ} (hf : Rounds fl) {K e : Nat} (he : e ≤ 280) {v : ℚ} {n : BigNumber}
    (hn : Rel K e v n) (hV : 4 * v ≤ 10 ^ e) {b : Int} (h : n.b ≤ b) (hb : b ≤ e) (hK : K + e ≤ 2 ^ 51) :
    Within (K + (b - n.b).toNat) (v / 10 ^ b) (lowerF fl (b - n.b).toNat n.a) := by
  have hp : ∀ b : Int, (0 : ℚ) < 10 ^ b := fun b => zpow_pos (by norm_num) _
  have hnb := hn.b0
  have e1 : v / 10 ^ n.b / 10 ^ (b - n.b).toNat = v / 10 ^ b := by
    rw [div_div, ← zpow_natCast, ← zpow_add₀ (by norm_num), Int.toNat_of_nonneg (by omega)]
    congr 2; omega
  have := hf.lower (b - n.b).toNat K (v / 10 ^ n.b) n.a hn.close (by
    rcases mid_div (b := b) hn.v01 (by omega) hb he (v_le he hn.v01 hV) with h1 | h1
    · left
      have := (hp b).ne'
      have hv : v = 0 := by
        rcases div_eq_zero_iff.mp h1 with h2 | h2
        · exact h2
        · exact absurd h2 this
      rw [hv, zero_div]
    · right
      rw [e1]
      refine ⟨h1.1, ?_⟩
      have h2 : (1 : ℚ) ≤ 10 ^ n.b := one_le_zpow₀ (by norm_num) hnb
      calc v / 10 ^ n.b ≤ v := div_le_self hn.v0 h2
        _ ≤ 10 ^ 280 := v_le he hn.v01 hV
        _ ≤ 10 ^ 299 := by norm_num) (by omega)
  rwa [e1] at this

/-- `add_big_number` -/
theorem Spec.Rounds.add {fl : ℚ → ℚ} (hf : Rounds fl) {K e : Nat} (he : e ≤ 280) {v w : ℚ} {n k : BigNumber}
    (hn : Rel K e v n) (hk : Rel K e w k) (hV : 4 * (v + w) ≤ 10 ^ e) (hK : K + 1 + e ≤ 2 ^ 51) :
    ∃ m, n.addF fl k = some m ∧ Rel (K + 1 + e) e (v + w) m := by
  have hp : ∀ b : Int, (0 : ℚ) < 10 ^ b := fun b => zpow_pos (by norm_num) _
  have hnb := hn.b0
  have hkb := hk.b0
  have hne := hn.be
  have hke := hk.be
  have hv0 := hn.v0
  have hw0 := hk.v0
  have hvw := v01_add hn.v01 hk.v01
  have h1 := hf.align he hn (by linarith) (le_max_left n.b k.b) (by omega) (by omega)
  have h2 := hf.align he hk (by linarith) (le_max_right n.b k.b) (by omega) (by omega)
  rw [show (max n.b k.b - k.b).toNat = (n.b - k.b).toNat by omega] at h2
  have hb0 : 0 ≤ max n.b k.b := by omega
  have hbe : max n.b k.b ≤ e := by omega
  obtain ⟨d, hd⟩ := Int.eq_ofNat_of_zero_le hb0
  have hc := (h1.mono (div_nonneg hv0 (hp _).le) (by omega : _ ≤ K + d)).add
    (h2.mono (div_nonneg hw0 (hp _).le) (by omega : _ ≤ K + d))
  rw [← add_div] at hc
  have hM := mid_div (b := max n.b k.b) hvw hb0 hbe he (v_le he hvw hV)
  obtain ⟨m, m1, m2, m3, m4, m5⟩ := hf.becomeSmaller he hvw hV (le_refl 10) (K + d + 1)
    ⟨fl (lowerF fl (max n.b k.b - n.b).toNat n.a + lowerF fl (n.b - k.b).toNat k.a), max n.b k.b⟩
    hb0 hbe (hf.within hc hM (by omega)) (by simp only; omega)
  simp only at m3 m5
  exact ⟨m, m1, by omega, m4, m2, m5.mono (div_nonneg (by linarith) (hp _).le) (by omega), hvw⟩

/-- `div_big_num` -/
theorem Spec.Rounds.divBig {fl : ℚ → ℚ} (hf : Rounds fl) {K L e : Nat} (he : e ≤ 280) {v w : ℚ} {n k : BigNumber}
    (hn : Rel K e v n) (hk : Rel L e w k) (hV : 4 * v ≤ 10 ^ e) (hW : 4 * w ≤ 10 ^ e)
    (hK : K + L + 1 + e ≤ 2 ^ 51) :
    (w = 0 → n.divBigF fl k = none) ∧
    (w ≠ 0 → ∃ p, n.divBigF fl k = some p ∧ Within (K + L + 1 + e) (v / w) p) := by
  have hp : ∀ b : Int, (0 : ℚ) < 10 ^ b := fun b => zpow_pos (by norm_num) _
  constructor
  · intro h
    unfold divBigF
    rw [if_pos]
    have := hk.close
    rw [h, zero_div] at this
    exact this.eq_zero
  · intro h
    have hw : 0 < w := lt_of_le_of_ne hk.v0 (Ne.symm h)
    have hw1 : 1 ≤ w := hk.v01.resolve_left h
    have hka := hk.close.pos (div_pos hw (hp _))
    unfold divBigF
    rw [if_neg hka.ne']
    refine ⟨_, rfl, ?_⟩
    have hnb := hn.b0
    have hkb := hk.b0
    have hne := hn.be
    have hke := hk.be
    have hv0 := hn.v0
    -- the sizes
    have big : ∀ b : Int, 0 ≤ b → b ≤ e → (10 : ℚ) ^ b ≤ 10 ^ 280 := by
      intro b h0 h1
      obtain ⟨d, rfl⟩ := Int.eq_ofNat_of_zero_le h0
      rw [zpow_natCast]
      exact pow_le_pow_right₀ (by norm_num) (by omega)
    have hsz : ∀ {v : ℚ} {a : ℚ} {b : Int} {K : Nat}, 1 ≤ v → v ≤ 10 ^ 280 → 0 ≤ b → b ≤ e → a < 10 → K ≤ 2 ^ 51 →
        Within K (v / 10 ^ b) a → v / 10 ^ b ≤ 20 ∧ 1 / 10 ^ 280 ≤ v / 10 ^ b := by
      intro v a b K h1 h2 h3 h4 h5 h6 h7
      have := (h7.le_two (div_nonneg (by linarith) (hp _).le) h6).2
      refine ⟨by linarith, ?_⟩
      rw [le_div_iff₀ (hp _), one_div_mul_eq_div, div_le_iff₀ (by positivity)]
      have := big b h3 h4
      have h9 : (0 : ℚ) ≤ 10 ^ 280 := by positivity
      nlinarith
    obtain ⟨w1, w2⟩ := hsz hw1 (v_le he hk.v01 hW) hkb hke hk.a10 (by omega) hk.close
    set r := v / 10 ^ n.b / (w / 10 ^ k.b) with hr
    have hrv : r = v / w * 10 ^ (k.b - n.b) := by
      rw [hr, zpow_sub₀ (by norm_num)]
      have := (hp k.b).ne'
      have := (hp n.b).ne'
      field_simp
    have hc := hn.close.div hk.close (div_nonneg hv0 (hp _).le) (div_pos hw (hp _))
    rw [← hr] at hc
    have hrange : v = 0 ∨ (1 / 10 ^ 299 ≤ r ∧ r ≤ 10 ^ 299) ∧ 1 / 10 ^ 299 ≤ v / w ∧ v / w ≤ 10 ^ 299 := by
      rcases hn.v01 with h1 | h1
      · exact .inl h1
      · right
        have hv280 := v_le he hn.v01 hV
        have hw280 := v_le he hk.v01 hW
        obtain ⟨v1, v2⟩ := hsz h1 hv280 hnb hne hn.a10 (by omega) hn.close
        have wp : 0 < w / 10 ^ k.b := div_pos hw (hp _)
        refine ⟨⟨?_, ?_⟩, ?_, ?_⟩
        · rw [hr, le_div_iff₀ wp]
          calc 1 / 10 ^ 299 * (w / 10 ^ k.b) ≤ 1 / 10 ^ 299 * (20 : ℚ) := mul_le_mul_of_nonneg_left w1 (by norm_num)
            _ ≤ 1 / 10 ^ 280 := by norm_num
            _ ≤ _ := v2
        · rw [hr, div_le_iff₀ wp]
          calc v / 10 ^ n.b ≤ 20 := v1
            _ ≤ 10 ^ 299 * (1 / 10 ^ 280) := by norm_num
            _ ≤ _ := mul_le_mul_of_nonneg_left w2 (by norm_num)
        · rw [le_div_iff₀ hw]
          calc 1 / 10 ^ 299 * w ≤ 1 / 10 ^ 299 * 10 ^ 280 := mul_le_mul_of_nonneg_left hw280 (by norm_num)
            _ ≤ 1 := by norm_num
            _ ≤ v := h1
        · calc v / w ≤ v := div_le_self hv0 hw1
            _ ≤ 10 ^ 280 := hv280
            _ ≤ _ := by norm_num
    have hrM : Mid r := by
      rcases hrange with h1 | h1
      · left; rw [hr, h1, zero_div, zero_div]
      · exact .inr h1.1
    have hq := hf.within hc hrM (by omega)
    have hvw0 : 0 ≤ v / w := div_nonneg hv0 hw.le
    rcases le_total n.b k.b with hle | hle
    · rw [show (n.b - k.b).toNat = 0 by omega]
      unfold raiseF
      have e1 : r / 10 ^ (k.b - n.b).toNat = v / w := by
        rw [hrv, ← zpow_natCast, Int.toNat_of_nonneg (by omega), mul_div_assoc, div_self (hp _).ne', mul_one]
      have := hf.lower (k.b - n.b).toNat (K + L + 1) r _ hq (by
        rcases hrange with h1 | h1
        · left; rw [hr, h1, zero_div, zero_div]
        · right; rw [e1]; exact ⟨h1.2.1, h1.1.2⟩) (by omega)
      rw [e1] at this
      exact this.mono hvw0 (by omega)
    · rw [show (k.b - n.b).toNat = 0 by omega]
      unfold lowerF
      have e1 : r * 10 ^ (n.b - k.b).toNat = v / w := by
        rw [hrv, ← zpow_natCast, Int.toNat_of_nonneg (by omega), mul_assoc, ← zpow_add₀ (by norm_num)]
        rw [show k.b - n.b + (n.b - k.b) = 0 by omega, zpow_zero, mul_one]
      have := hf.raise (n.b - k.b).toNat (K + L + 1) r _ hq (by
        rcases hrange with h1 | h1
        · left; rw [hr, h1, zero_div, zero_div]
        · right; rw [e1]; exact ⟨h1.1.1, h1.2.2⟩) (by omega)
      rw [e1] at this
      exact this.mono hvw0 (by omega)

/-- the loop of `C`: after `i` rounds the value is `C(n, i)` -/
theorem Spec.Rounds.chooseLoop {fl : ℚ → ℚ} (hf : Rounds fl) {e : Nat} (he : e ≤ 280) (n : Nat)
    (hV : ∀ i, 4 * (n.choose i : ℚ) ≤ 10 ^ e) (hn : (n : ℚ) ≤ 10 ^ 50) : ∀ (m i K : Nat) (c : BigNumber), i + m ≤ n → 0 ≤ c.b → c.b ≤ e →
    c.a ≤ 10 ^ 209 → Within K (n.choose i / 10 ^ c.b) c.a → K + 5 * m + (e - c.b).toNat ≤ 2 ^ 51 →
    ∃ c', chooseLoopF fl n m i c = some c' ∧ c'.a ≤ 10 ^ 209 ∧ c.b ≤ c'.b ∧ c'.b ≤ e ∧
      Within (K + 5 * m + (c'.b - c.b).toNat) (n.choose (i + m) / 10 ^ c'.b) c'.a := by
  have hp : ∀ b : Int, (0 : ℚ) < 10 ^ b := fun b => zpow_pos (by norm_num) _
  have ht := hf.within (Within.refl (10 ^ 208)) (.inr ⟨by norm_num, by norm_num⟩) (by norm_num)
  have ht2 := ht.le_two (by norm_num) (by norm_num)
  have ht10 : (10 : ℚ) ≤ fl (10 ^ 208) := by
    have : (20 : ℚ) ≤ 10 ^ 208 := by norm_num
    linarith [ht2.2]
  have htb : fl (10 ^ 208) ≤ 10 ^ 209 := by
    have : (2 : ℚ) * 10 ^ 208 ≤ 10 ^ 209 := by norm_num
    linarith [ht2.1]
  intro m
  induction m with
  | zero => intro i K c _ h0 hb ha hw _; exact ⟨c, rfl, ha, le_rfl, hb, by simpa using hw⟩
  | succ m ih =>
    intro i K c him h0 hb ha hw hK
    unfold chooseLoopF
    have small : ∀ k : Nat, 1 ≤ k → k ≤ n → Within 1 (k : ℚ) (fl k) := by
      intro k h1 h2
      have h1q : (1 : ℚ) ≤ k := by exact_mod_cast h1
      have h2q : (k : ℚ) ≤ n := by exact_mod_cast h2
      exact hf.within (Within.refl _) (.inr ⟨le_trans (by norm_num) h1q, by
        have : (10 : ℚ) ^ 50 ≤ 10 ^ 299 := by norm_num
        linarith⟩) (by norm_num)
    have k1 := small (n - i) (by omega) (by omega)
    have k2 := small (i + 1) (by omega) (by omega)
    have hci : (1 : ℚ) ≤ n.choose i := by exact_mod_cast Nat.choose_pos (by omega)
    have hcn : (1 : ℚ) ≤ n.choose (i + 1) := by exact_mod_cast Nat.choose_pos (by omega)
    have hni : (1 : ℚ) ≤ ((n - i : Nat) : ℚ) := by exact_mod_cast (by omega : 1 ≤ n - i)
    have hi1 : (1 : ℚ) ≤ ((i + 1 : Nat) : ℚ) := by exact_mod_cast (by omega : 1 ≤ i + 1)
    have hnn : ((n - i : Nat) : ℚ) ≤ n := by exact_mod_cast (by omega : n - i ≤ n)
    have hin : ((i + 1 : Nat) : ℚ) ≤ n := by exact_mod_cast (by omega : i + 1 ≤ n)
    have hcb0 : (0 : ℚ) ≤ n.choose i / 10 ^ c.b := div_nonneg (by linarith) (hp _).le
    have hmul := hw.mul k1 hcb0 (by linarith)
    have hstep : (n.choose i : ℚ) * ((n - i : Nat) : ℚ) = n.choose (i + 1) * ((i + 1 : Nat) : ℚ) := by
      have := Nat.choose_succ_right_eq n i
      exact_mod_cast this.symm
    have hv : (n.choose i : ℚ) / 10 ^ c.b * ((n - i : Nat) : ℚ) = n.choose (i + 1) / 10 ^ c.b * ((i + 1 : Nat) : ℚ) := by
      rw [div_mul_eq_mul_div, hstep, mul_div_right_comm]
    have hM1 : Mid ((n.choose i : ℚ) / 10 ^ c.b * ((n - i : Nat) : ℚ)) := by
      rcases mid_div (v := n.choose i) (b := c.b) (.inr hci) h0 hb he (v_le he (.inr hci) (hV i)) with h1 | h1
      · left; rw [h1, zero_mul]
      · right
        refine ⟨h1.1.trans (le_mul_of_one_le_right hcb0 hni), ?_⟩
        have h2 := (hw.le_two hcb0 (by omega)).2
        calc (n.choose i : ℚ) / 10 ^ c.b * ((n - i : Nat) : ℚ) ≤ (2 * 10 ^ 209) * 10 ^ 50 :=
              mul_le_mul (by linarith) (by linarith) (by linarith) (by norm_num)
          _ ≤ 10 ^ 299 := by norm_num
    have r1 := hf.within hmul hM1 (by omega)
    rw [hv] at r1
    have hcb1 : (0 : ℚ) ≤ n.choose (i + 1) / 10 ^ c.b := div_nonneg (by linarith) (hp _).le
    have hdiv := r1.div k2 (mul_nonneg hcb1 (by linarith)) (by linarith)
    rw [mul_div_assoc, div_self (by linarith), mul_one] at hdiv
    have hM2 := mid_div (v := n.choose (i + 1)) (b := c.b) (.inr hcn) h0 hb he (v_le he (.inr hcn) (hV _))
    have r2 := hf.within hdiv hM2 (by omega)
    obtain ⟨c1, g1, g2, g3, g4, g5⟩ := hf.becomeSmaller he (.inr hcn) (hV _) ht10 (K + 1 + 1 + 1 + 1)
      ⟨fl (fl (c.a * fl ((n - i : Nat) : ℚ)) / fl ((i + 1 : Nat) : ℚ)), c.b⟩ h0 hb r2 (by simp only; omega)
    simp only at g3 g5
    obtain ⟨c2, f1, f2, f3, f4, f5⟩ := ih (i + 1) _ c1 (by omega) (by omega) g4 (by linarith) g5 (by omega)
    refine ⟨c2, by rw [g1]; exact f1, f2, by omega, f4, ?_⟩
    rw [show i + (m + 1) = i + 1 + m by omega]
    exact f5.mono (div_nonneg (by positivity) (hp _).le) (by omega)

/-- `C` -/
theorem Spec.Rounds.bigC {fl : ℚ → ℚ} (hf : Rounds fl) {e : Nat} (he : e ≤ 280) (n : Nat)
    (hV : ∀ i, 4 * (n.choose i : ℚ) ≤ 10 ^ e) (hn : (n : ℚ) ≤ 10 ^ 50) (hK : 5 * n + e ≤ 2 ^ 51) {k : Nat} (hk : k ≤ n) :
    ∃ c, bigCF fl n k = some c ∧ Rel (5 * n + e) e (n.choose k) c := by
  have hp : ∀ b : Int, (0 : ℚ) < 10 ^ b := fun b => zpow_pos (by norm_num) _
  have core : ∀ k, k ≤ n → ∃ c, chooseCoreF fl n k = some c ∧ Rel (5 * n + e) e (n.choose k) c := by
    intro k hk
    obtain ⟨c, c1, c2, c3, c4, c5⟩ := hf.chooseLoop he n hV hn k 0 0 ⟨1, 0⟩ (by omega) le_rfl (by simp) (by norm_num)
      (by simpa using Within.refl 1) (by simp only; omega)
    simp only at c3 c5
    rw [Nat.zero_add k] at c5
    have h1 : (1 : ℚ) ≤ n.choose k := by exact_mod_cast Nat.choose_pos hk
    obtain ⟨d, d1, d2, d3, d4, d5⟩ := hf.becomeSmaller he (.inr h1) (hV k) (le_refl 10) _ c c3 c4 c5 (by omega)
    refine ⟨d, by unfold chooseCoreF; rw [c1]; exact d1, by omega, d4, d2, ?_, .inr h1⟩
    exact d5.mono (div_nonneg (by linarith) (hp _).le) (by omega)
  unfold bigCF
  split
  · rw [if_neg (by omega), if_neg (by omega)]
    obtain ⟨c, c1, c2⟩ := core (n - k) (by omega)
    rw [Nat.choose_symm hk] at c2
    exact ⟨c, c1, c2⟩
  · exact core k hk

end Ms
