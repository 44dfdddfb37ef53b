import Verif.Lemmas.ObrPeaks

/-! # Cells of 8 and of 9 pixels with lines two pixels wide -/

namespace Ms.Properties
open Ms Ms.Spec

theorem smooth_ge {x : List Nat} {j u v c : Nat} (h4 : 4 ≤ j) (hl : j + 4 < x.length) (hu1 : 1 ≤ u) (hu : u ≤ 4) (hv1 : 1 ≤ v) (hv : v ≤ 4)
    (h1 : c ≤ x.getD (j - u) 0) (h2 : c ≤ x.getD (j + v) 0) : c ≤ smooth x j := by
  unfold smooth
  simp only
  rw [if_neg (by omega)]
  have hu' : u = 1 ∨ u = 2 ∨ u = 3 ∨ u = 4 := by omega
  have hv' : v = 1 ∨ v = 2 ∨ v = 3 ∨ v = 4 := by omega
  rcases hu' with rfl | rfl | rfl | rfl <;> rcases hv' with rfl | rfl | rfl | rfl <;>
    simp only [le_max_iff, le_min_iff, h1, h2, true_or, or_true, and_self]

/-- when smoothing leaves peaks so dense that no two neighbouring lines are more than five apart -/
theorem getLine_dense {x : List Nat} {H : Nat} {pk ln : Nat → Prop} (h8 : 8 ≤ x.length) (h0 : 0 < H) (h24 : H ≤ 2 ^ 24)
    (hx : ∀ v ∈ x, v ≤ H) (hH : H ∈ x) (hpk : ∀ j, pk j → j < x.length) (up : ∀ j, pk j → smooth x j = H)
    (low : ∀ j, j < x.length → ¬ pk j → smooth x j < H)
    (far : ∀ j, j < x.length → (∀ k, pk k → j + 8 ≤ k ∨ k + 8 ≤ j) → 3 * smooth x j ≤ H)
    (hln : ∀ j, ln j → pk j ∧ ∃ l r : List Nat, l.Pairwise (· < ·) ∧ r.Pairwise (· < ·) ∧
      (∀ k, k ∈ l ↔ (j < k + 8 ∧ k < j) ∧ pk k) ∧ (∀ k, k ∈ r ↔ (j < k ∧ k < j + 8) ∧ pk k) ∧
      (l.length = r.length ∨ l.length + 1 = r.length))
    (dense : ∀ a b, pk a → pk b → a + 5 < b → ∃ c, ln c ∧ a < c ∧ c < b) : getLine x = none := by
  obtain ⟨l, hl⟩ := findLines_some h8
  obtain ⟨th, t1, t2, t3⟩ := findLines_mem h0 h24 hx hH hl
  have le : ∀ j, j < x.length → smooth x j ≤ H := by
    intro j hj
    by_cases h : pk j
    · exact (up j h).le
    · exact (low j hj h).le
  have yes : ∀ j, ln j → j ∈ l := by
    intro j hj
    obtain ⟨p, ls, rs, p1, p2, p3, p4, p5⟩ := hln j hj
    have hlt := hpk j p
    rw [t3, isLine_true hlt]
    refine ⟨hlt, by rw [up j p]; exact t1, fun k _ _ => by rw [up j p]; exact le k (by omega), ?_⟩
    have e1 : ((rng (max 7 j - 7) j).filter fun k => decide (smooth x j ≤ smooth x k)) = ls := by
      refine List.Pairwise.eq_of_mem_iff (r := (· < ·)) (List.Pairwise.filter _ (List.pairwise_lt_range')) p1 fun k => ?_
      rw [List.mem_filter, mem_rng', decide_eq_true_eq, p3, up j p]
      constructor
      · rintro ⟨h1, h2⟩
        refine ⟨by omega, ?_⟩
        by_contra hn
        have := low k (by omega) hn
        omega
      · rintro ⟨h1, h2⟩
        exact ⟨by omega, (up k h2).ge⟩
    have e2 : ((rng (j + 1) (min x.length (j + 8))).filter fun k => decide (smooth x j ≤ smooth x k)) = rs := by
      refine List.Pairwise.eq_of_mem_iff (r := (· < ·)) (List.Pairwise.filter _ (List.pairwise_lt_range')) p2 fun k => ?_
      rw [List.mem_filter, mem_rng', decide_eq_true_eq, p4, up j p]
      constructor
      · rintro ⟨h1, h2⟩
        refine ⟨by omega, ?_⟩
        by_contra hn
        have := low k (by omega) hn
        omega
      · rintro ⟨h1, h2⟩
        have := hpk k h2
        exact ⟨by omega, (up k h2).ge⟩
    rw [e1, e2]
    exact p5
  have only : ∀ j, j ∈ l → pk j := by
    intro j hj
    rw [t3] at hj
    have hlt := hj.1
    obtain ⟨a1, a2, -⟩ := (isLine_true hlt).mp hj.2
    have hnear : ∃ k, pk k ∧ j < k + 8 ∧ k < j + 8 := by
      by_contra hn
      have := t2 _ (far j hlt fun k hk => by
        by_contra hc
        exact hn ⟨k, hk, by omega, by omega⟩)
      exact absurd a1 (not_le.mpr this)
    obtain ⟨k, hk, n1, n2⟩ := hnear
    have hkl := hpk k hk
    have h1 := a2 k (by omega) (by omega)
    rw [up k hk] at h1
    by_contra hn
    have := low j hlt hn
    omega
  refine (getLine_none_iff h8).mpr ⟨l, hl, no_gaps (findLines_sorted hl).1 fun a ha b hb hab => ?_⟩
  obtain ⟨c, c1, c2, c3⟩ := dense a b (only a ha) (only b hb) hab
  exact ⟨c, yes c c1, c2, c3⟩

section
variable {x : List Nat} {H o N p : Nat}

theorem _root_.Ms.Spec.EvenLines.all_le (hx : EvenLines x H p o N 2) : ∀ v ∈ x, v ≤ H := by
  intro v hv
  obtain ⟨i, hi, rfl⟩ := List.mem_iff_getElem.mp hv
  have := hx.le i hi
  rwa [List.getD_eq_getElem?_getD, List.getElem?_eq_getElem hi] at this

theorem _root_.Ms.Spec.EvenLines.mem_full (hx : EvenLines x H p o N 2) : H ∈ x := by
  have h1 := hx.line 0 (by omega) 0 (by omega)
  have := hx.fits
  rw [List.getD_eq_getElem?_getD, List.getElem?_eq_getElem (by omega), Option.getD_some] at h1
  rw [← h1]
  exact List.getElem_mem _

theorem _root_.Ms.Spec.EvenLines.smooth_le (hx : EvenLines x H p o N 2) (j : Nat) (hj : j < x.length) : smooth x j ≤ H := by
  have := Properties.smooth_lt (x := x) (j := j) (c := H + 1) (by have := hx.le j hj; omega)
    (.inl fun u _ _ _ => by have := hx.le (j - u) (by omega); omega)
  omega

theorem _root_.Ms.Spec.EvenLines.full_only (hx : EvenLines x H p o N 2) {j : Nat} (hj : j < x.length) (h : H ≤ x.getD j 0) :
    ∃ k, k ≤ N ∧ (j = o + p * k ∨ j = o + p * k + 1) := by
  by_contra hn
  have := hx.lower j hj fun i hi t ht e => hn ⟨i, hi, by rw [Nat.mul_comm]; omega⟩
  omega

theorem _root_.Ms.Spec.EvenLines.getLine_nine (hx : EvenLines x H 9 o N 2) (hN : 1 ≤ N) (h0 : 0 < H) (h24 : H ≤ 2 ^ 24) :
    Ms.getLine x = none := by
  have hfit := hx.fits
  have full : ∀ k t, k ≤ N → t < 2 → H ≤ x.getD (o + 9 * k + t) 0 := fun k t hk ht => by
    have := hx.line k hk t ht
    rw [Nat.mul_comm] at this
    omega
  refine getLine_dense (pk := fun j => o ≤ j ∧ j ≤ o + 9 * N + 1 ∧ ((j - o) % 9 = 0 ∨ (j - o) % 9 = 1 ∨ (j - o) % 9 = 5))
    (ln := fun j => j = o + 1 ∨ (∃ i, i < N ∧ j = o + 9 * i + 5) ∨ ∃ i, 1 ≤ i ∧ i ≤ N ∧ j = o + 9 * i) (by omega) h0 h24 hx.all_le
    hx.mem_full (by intro j hj; omega) ?_ ?_ ?_ ?_ ?_
  · rintro j ⟨j1, j2, j3⟩
    refine le_antisymm (hx.smooth_le j (by omega)) ?_
    obtain ⟨k, r, hr, rfl⟩ : ∃ k r, r < 9 ∧ j = o + 9 * k + r := ⟨(j - o) / 9, (j - o) % 9, by omega, by omega⟩
    by_cases h5 : r = 5
    · subst h5
      refine smooth_ge (u := 4) (v := 4) (by omega) (by omega) (by omega) (by omega) (by omega) (by omega) ?_ ?_
      · have := full k 1 (by omega) (by omega)
        rwa [show o + 9 * k + 5 - 4 = o + 9 * k + 1 by omega]
      · have := full (k + 1) 0 (by omega) (by omega)
        rwa [show o + 9 * k + 5 + 4 = o + 9 * (k + 1) + 0 by omega]
    · exact le_trans (full k r (by omega) (by omega)) (le_smooth x _)
  · intro j hj hn
    refine Properties.smooth_lt ?_ ?_
    · by_contra hc
      obtain ⟨k, hk, e⟩ := hx.full_only hj (by omega)
      exact hn (by omega)
    · by_contra hc
      push Not at hc
      obtain ⟨⟨u, u1, u2, u3, u4⟩, v, v1, v2, v3, v4⟩ := hc
      obtain ⟨k, hk, e⟩ := hx.full_only (by omega) u4
      obtain ⟨k', hk', e'⟩ := hx.full_only v3 v4
      exact hn (by omega)
  · intro j hj hf
    refine hx.smooth_far hj fun i hi t ht => ?_
    have := hf (o + i * 9 + t) (by omega)
    omega
  · rintro j (rfl | ⟨i, hi, rfl⟩ | ⟨i, hi1, hi, rfl⟩)
    · refine ⟨by omega, [o], [o + 5], by simp, by simp, fun k => ?_, fun k => ?_, .inl rfl⟩
      · simp only [List.mem_cons, List.not_mem_nil, or_false]; omega
      · simp only [List.mem_cons, List.not_mem_nil, or_false]; omega
    · refine ⟨by omega, [o + 9 * i, o + 9 * i + 1], [o + 9 * i + 9, o + 9 * i + 10], by simp, by simp, fun k => ?_, fun k => ?_, .inl rfl⟩
      · simp only [List.mem_cons, List.not_mem_nil, or_false]; omega
      · simp only [List.mem_cons, List.not_mem_nil, or_false]; omega
    · by_cases e : i = N
      · subst e
        refine ⟨by omega, [o + 9 * i - 4], [o + 9 * i + 1], by simp, by simp, fun k => ?_, fun k => ?_, .inl rfl⟩
        · simp only [List.mem_cons, List.not_mem_nil, or_false]; omega
        · simp only [List.mem_cons, List.not_mem_nil, or_false]; omega
      · refine ⟨by omega, [o + 9 * i - 4], [o + 9 * i + 1, o + 9 * i + 5], by simp, by simp, fun k => ?_, fun k => ?_, .inr rfl⟩
        · simp only [List.mem_cons, List.not_mem_nil, or_false]; omega
        · simp only [List.mem_cons, List.not_mem_nil, or_false]; omega
  · rintro a b ⟨a1, a2, a3⟩ ⟨b1, b2, b3⟩ hab
    by_cases h5 : (a - o) % 9 = 5
    · exact ⟨o + 9 * ((a - o) / 9 + 1), .inr (.inr ⟨_, by omega, by omega, rfl⟩), by omega, by omega⟩
    · exact ⟨o + 9 * ((a - o) / 9) + 5, .inr (.inl ⟨_, by omega, rfl⟩), by omega, by omega⟩

theorem _root_.Ms.Spec.EvenLines.getLine_eight_two (hx : EvenLines x H 8 o N 2) (hN : 1 ≤ N) (h0 : 0 < H) (h24 : H ≤ 2 ^ 24) :
    Ms.getLine x = none := by
  have hfit := hx.fits
  have full : ∀ k t, k ≤ N → t < 2 → H ≤ x.getD (o + 8 * k + t) 0 := fun k t hk ht => by
    have := hx.line k hk t ht
    rw [Nat.mul_comm] at this
    omega
  refine getLine_dense (pk := fun j => o ≤ j ∧ j ≤ o + 8 * N + 1 ∧ ((j - o) % 8 = 0 ∨ (j - o) % 8 = 1 ∨ (j - o) % 8 = 4 ∨ (j - o) % 8 = 5))
    (ln := fun j => (∃ i, i < N ∧ j = o + 8 * i + 4) ∨ ∃ i, 1 ≤ i ∧ i < N ∧ j = o + 8 * i) (by omega) h0 h24 hx.all_le
    hx.mem_full (by intro j hj; omega) ?_ ?_ ?_ ?_ ?_
  · rintro j ⟨j1, j2, j3⟩
    refine le_antisymm (hx.smooth_le j (by omega)) ?_
    obtain ⟨k, r, hr, rfl⟩ : ∃ k r, r < 8 ∧ j = o + 8 * k + r := ⟨(j - o) / 8, (j - o) % 8, by omega, by omega⟩
    by_cases h4 : r = 4
    · subst h4
      refine smooth_ge (u := 4) (v := 4) (by omega) (by omega) (by omega) (by omega) (by omega) (by omega) ?_ ?_
      · have := full k 0 (by omega) (by omega)
        rwa [show o + 8 * k + 4 - 4 = o + 8 * k + 0 by omega]
      · have := full (k + 1) 0 (by omega) (by omega)
        rwa [show o + 8 * k + 4 + 4 = o + 8 * (k + 1) + 0 by omega]
    · by_cases h5 : r = 5
      · subst h5
        refine smooth_ge (u := 4) (v := 4) (by omega) (by omega) (by omega) (by omega) (by omega) (by omega) ?_ ?_
        · have := full k 1 (by omega) (by omega)
          rwa [show o + 8 * k + 5 - 4 = o + 8 * k + 1 by omega]
        · have := full (k + 1) 1 (by omega) (by omega)
          rwa [show o + 8 * k + 5 + 4 = o + 8 * (k + 1) + 1 by omega]
      · exact le_trans (full k r (by omega) (by omega)) (le_smooth x _)
  · intro j hj hn
    refine Properties.smooth_lt ?_ ?_
    · by_contra hc
      obtain ⟨k, hk, e⟩ := hx.full_only hj (by omega)
      exact hn (by omega)
    · by_contra hc
      push Not at hc
      obtain ⟨⟨u, u1, u2, u3, u4⟩, v, v1, v2, v3, v4⟩ := hc
      obtain ⟨k, hk, e⟩ := hx.full_only (by omega) u4
      obtain ⟨k', hk', e'⟩ := hx.full_only v3 v4
      exact hn (by omega)
  · intro j hj hf
    refine hx.smooth_far hj fun i hi t ht => ?_
    have := hf (o + i * 8 + t) (by omega)
    omega
  · rintro j (⟨i, hi, rfl⟩ | ⟨i, hi1, hi, rfl⟩)
    · by_cases e : i = 0
      · subst e
        refine ⟨by omega, [o, o + 1], [o + 5, o + 8, o + 9], by simp, by simp, fun k => ?_, fun k => ?_, .inr rfl⟩
        · simp only [List.mem_cons, List.not_mem_nil, or_false]; omega
        · simp only [List.mem_cons, List.not_mem_nil, or_false]; omega
      · refine ⟨by omega, [o + 8 * i - 3, o + 8 * i, o + 8 * i + 1], [o + 8 * i + 5, o + 8 * i + 8, o + 8 * i + 9], by simp; omega, by simp,
          fun k => ?_, fun k => ?_, .inl rfl⟩
        · simp only [List.mem_cons, List.not_mem_nil, or_false]; omega
        · simp only [List.mem_cons, List.not_mem_nil, or_false]; omega
    · refine ⟨by omega, [o + 8 * i - 7, o + 8 * i - 4, o + 8 * i - 3], [o + 8 * i + 1, o + 8 * i + 4, o + 8 * i + 5], by simp; omega, by simp,
        fun k => ?_, fun k => ?_, .inl rfl⟩
      · simp only [List.mem_cons, List.not_mem_nil, or_false]; omega
      · simp only [List.mem_cons, List.not_mem_nil, or_false]; omega
  · rintro a b ⟨a1, a2, a3⟩ ⟨b1, b2, b3⟩ hab
    by_cases h5 : (a - o) % 8 = 4 ∨ (a - o) % 8 = 5
    · exact ⟨o + 8 * ((a - o) / 8 + 1), .inr ⟨_, by omega, by omega, rfl⟩, by omega, by omega⟩
    · exact ⟨o + 8 * ((a - o) / 8) + 4, .inl ⟨_, by omega, rfl⟩, by omega, by omega⟩

end

end Ms.Properties
