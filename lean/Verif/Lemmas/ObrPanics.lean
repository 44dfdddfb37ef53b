import Verif.Lemmas.ObrComb

/-! # Lists of scores without lines more than 5 apart -/

namespace Ms.Properties
open Ms Ms.Spec

/-- a distance of neighbouring lines: there is no line between them -/
theorem gaps_neighbours {l : List Nat} (hs : l.Pairwise (· < ·)) {d : Nat} (h : d ∈ gaps l) :
    5 < d ∧ ∃ a ∈ l, ∃ b ∈ l, a + d = b ∧ ∀ c ∈ l, c ≤ a ∨ b ≤ c := by
  obtain ⟨h5, i, hi, e⟩ := mem_gaps h
  refine ⟨h5, l[i], List.getElem_mem _, l[i + 1], List.getElem_mem _, by omega, fun c hc => ?_⟩
  obtain ⟨k, hk, rfl⟩ := List.mem_iff_getElem.mp hc
  rw [List.pairwise_iff_getElem] at hs
  have hm : ∀ a b (ha : a < l.length) (hb : b < l.length), a ≤ b → l[a] ≤ l[b] := by
    intro a b ha hb hab
    rcases Nat.eq_or_lt_of_le hab with rfl | h
    · exact le_rfl
    · exact (hs a b ha hb h).le
  by_cases hki : k ≤ i
  · exact .inl (hm k i hk (by omega) hki)
  · exact .inr (hm (i + 1) k hi hk (by omega))

theorem no_gaps {l : List Nat} (hs : l.Pairwise (· < ·)) (h : ∀ a ∈ l, ∀ b ∈ l, a + 5 < b → ∃ c ∈ l, a < c ∧ c < b) : gaps l = [] := by
  rw [List.eq_nil_iff_forall_not_mem]
  intro d hd
  obtain ⟨h5, a, ha, b, hb, e, hn⟩ := gaps_neighbours hs hd
  obtain ⟨c, hc, c1, c2⟩ := h a ha b hb (by omega)
  have := hn c hc
  omega

/-- which places of a list are lines -/
theorem findLines_mem {x l : List Nat} {H : Nat} (h0 : 0 < H) (h24 : H ≤ 2 ^ 24) (hx : ∀ v ∈ x, v ≤ H) (hH : H ∈ x)
    (hl : findLines x = some l) : ∃ th, th ≤ fl32 H ∧ (∀ v : Nat, 3 * v ≤ H → fl32 v < th) ∧
      ∀ j, j ∈ l ↔ j < x.length ∧ isLine (smooth x) x.length th j = true := by
  obtain ⟨th, ht, t1, t2⟩ := lineLevel_between h0 h24 hx hH
  refine ⟨th, t1, t2, fun j => ?_⟩
  unfold findLines at hl
  split at hl
  · cases hl
  · rw [ht] at hl
    cases hl
    rw [List.mem_filter, List.mem_range]

theorem isLine_true {xx : Nat → Nat} {len : Nat} {th : ℚ} {i : Nat} (hi : i < len) : isLine xx len th i = true ↔
    th ≤ fl32 (xx i) ∧ (∀ j, max 7 i - 7 ≤ j → j < min len (i + 8) → xx j ≤ xx i) ∧
    (((rng (max 7 i - 7) i).filter fun j => decide (xx i ≤ xx j)).length =
        ((rng (i + 1) (min len (i + 8))).filter fun j => decide (xx i ≤ xx j)).length ∨
      ((rng (max 7 i - 7) i).filter fun j => decide (xx i ≤ xx j)).length + 1 =
        ((rng (i + 1) (min len (i + 8))).filter fun j => decide (xx i ≤ xx j)).length) := by
  unfold isLine
  simp only [Bool.and_eq_true, Bool.or_eq_true, decide_eq_true_eq, List.all_eq_true, beq_iff_eq]
  rw [and_assoc]
  constructor
  · rintro ⟨a, b, c⟩
    refine ⟨a, fun j j1 j2 => ?_, c⟩
    by_cases e : j = i
    · rw [e]
    · exact b j (by rw [List.mem_append, mem_rng', mem_rng']; omega)
  · rintro ⟨a, b, c⟩
    refine ⟨a, fun j hj => ?_, c⟩
    rw [List.mem_append, mem_rng', mem_rng'] at hj
    exact b j (by omega) (by omega)

/-- The scores of cells 8 wide: `get_line` panics. -/
theorem _root_.Ms.Spec.EvenLines.getLine_eight {x : List Nat} {H o N : Nat} (hx : EvenLines x H 8 o N 1) (hN : 1 ≤ N)
    (h0 : 0 < H) (h24 : H ≤ 2 ^ 24) : Ms.getLine x = none := by
  have hfit := hx.fits
  have pk : ∀ k, k ≤ N → x.getD (o + 8 * k) 0 = H := fun k hk => by
    have := hx.line k hk 0 (by omega)
    rwa [Nat.add_zero, Nat.mul_comm] at this
  have npk : ∀ j, j < x.length → H ≤ x.getD j 0 → ∃ k, k ≤ N ∧ j = o + 8 * k := by
    intro j hj hH
    by_contra hn
    have := hx.lower j hj fun i hi t ht e => hn ⟨i, hi, by omega⟩
    omega
  -- the smoothed scores
  have le : ∀ j, j < x.length → smooth x j ≤ H := by
    intro j hj
    have := Properties.smooth_lt (x := x) (j := j) (c := H + 1) (by have := hx.le j hj; omega)
      (.inl fun u _ _ _ => by have := hx.le (j - u) (by omega); omega)
    omega
  have up : ∀ m, m ≤ 2 * N → smooth x (o + 4 * m) = H := by
    intro m hm
    refine le_antisymm (le _ (by omega)) ?_
    rcases Nat.even_or_odd' m with ⟨k, rfl | rfl⟩
    · have := le_smooth x (o + 4 * (2 * k))
      rw [show o + 4 * (2 * k) = o + 8 * k by omega] at this ⊢
      rwa [pk k (by omega)] at this
    · have a := pk k (by omega)
      have b := pk (k + 1) (by omega)
      unfold smooth
      simp only
      rw [if_neg (by omega), show o + 4 * (2 * k + 1) - 4 = o + 8 * k by omega,
        show o + 4 * (2 * k + 1) + 4 = o + 8 * (k + 1) by omega, a, b]
      refine le_trans (le_min ?_ ?_) (le_max_right _ _)
      · exact le_trans (le_max_left _ _) (le_max_left _ _)
      · exact le_trans (le_max_right _ _) (le_max_right _ _)
  have low : ∀ j, j < x.length → (∀ m, m ≤ 2 * N → j ≠ o + 4 * m) → smooth x j < H := by
    intro j hj hn
    refine Properties.smooth_lt ?_ ?_
    · by_contra hc
      obtain ⟨k, hk, e⟩ := npk j hj (by omega)
      exact hn (2 * k) (by omega) (by omega)
    · by_contra hc
      push Not at hc
      obtain ⟨⟨u, u1, u2, u3, u4⟩, v, v1, v2, v3, v4⟩ := hc
      obtain ⟨k, hk, e⟩ := npk _ (by omega) u4
      obtain ⟨k', hk', e'⟩ := npk _ v3 v4
      exact hn (2 * k + 1) (by omega) (by omega)
  have hmem : ∀ v ∈ x, v ≤ H := by
    intro v hv
    obtain ⟨i, hi, rfl⟩ := List.mem_iff_getElem.mp hv
    have := hx.le i hi
    rwa [List.getD_eq_getElem?_getD, List.getElem?_eq_getElem hi] at this
  have hH : H ∈ x := by
    have h1 := hx.line 0 (by omega) 0 (by omega)
    rw [List.getD_eq_getElem?_getD, List.getElem?_eq_getElem (by omega), Option.getD_some] at h1
    rw [← h1]
    exact List.getElem_mem _
  obtain ⟨l, hl⟩ := findLines_some (x := x) (by omega)
  obtain ⟨th, t1, t2, t3⟩ := findLines_mem h0 h24 hmem hH hl
  -- which of the places near a line are as high
  have eqv : ∀ m, m ≤ 2 * N → ∀ j, j < x.length → (smooth x (o + 4 * m) ≤ smooth x j ↔ ∃ n, n ≤ 2 * N ∧ j = o + 4 * n) := by
    intro m hm j hj
    rw [up m hm]
    constructor
    · intro h
      by_contra hn
      have := low j hj fun n hn' e => hn ⟨n, hn', e⟩
      omega
    · rintro ⟨n, hn, rfl⟩
      rw [up n hn]
  have left : ∀ m, m ≤ 2 * N → ((rng (max 7 (o + 4 * m) - 7) (o + 4 * m)).filter fun j =>
      decide (smooth x (o + 4 * m) ≤ smooth x j)) = if m = 0 then [] else [o + 4 * m - 4] := by
    intro m hm
    refine List.Pairwise.eq_of_mem_iff (r := (· < ·)) (List.Pairwise.filter _ (List.pairwise_lt_range')) (by split <;> simp) fun j => ?_
    rw [List.mem_filter, mem_rng', decide_eq_true_eq]
    constructor
    · rintro ⟨h1, h2⟩
      obtain ⟨n, hn, e⟩ := (eqv m hm j (by omega)).mp h2
      rw [if_neg (by omega), List.mem_singleton]
      omega
    · intro h
      split at h
      · cases h
      · rw [List.mem_singleton] at h
        exact ⟨by omega, (eqv m hm j (by omega)).mpr ⟨m - 1, by omega, by omega⟩⟩
  have right : ∀ m, m ≤ 2 * N → ((rng (o + 4 * m + 1) (min x.length (o + 4 * m + 8))).filter fun j =>
      decide (smooth x (o + 4 * m) ≤ smooth x j)) = if m = 2 * N then [] else [o + 4 * m + 4] := by
    intro m hm
    refine List.Pairwise.eq_of_mem_iff (r := (· < ·)) (List.Pairwise.filter _ (List.pairwise_lt_range')) (by split <;> simp) fun j => ?_
    rw [List.mem_filter, mem_rng', decide_eq_true_eq]
    constructor
    · rintro ⟨h1, h2⟩
      obtain ⟨n, hn, e⟩ := (eqv m hm j (by omega)).mp h2
      rw [if_neg (by omega), List.mem_singleton]
      omega
    · intro h
      split at h
      · cases h
      · rw [List.mem_singleton] at h
        exact ⟨by omega, (eqv m hm j (by omega)).mpr ⟨m + 1, by omega, by omega⟩⟩
  have yes : ∀ m, m < 2 * N → o + 4 * m ∈ l := by
    intro m hm
    have hlt : o + 4 * m < x.length := by omega
    rw [t3, isLine_true hlt]
    refine ⟨hlt, by rw [up m (by omega)]; exact t1, fun j _ _ => by rw [up m (by omega)]; exact le j (by omega), ?_⟩
    rw [left m (by omega), right m (by omega), if_neg (by omega : ¬ m = 2 * N)]
    split <;> simp
  have only : ∀ j, j ∈ l → o ≤ j ∧ j < o + 8 * N := by
    intro j hj
    rw [t3] at hj
    have hlt := hj.1
    obtain ⟨a1, a2, a3⟩ := (isLine_true hlt).mp hj.2
    have hnear : ∃ k, k ≤ N ∧ j < o + 8 * k + 8 ∧ o + 8 * k < j + 8 := by
      by_contra hn
      have := t2 _ (hx.smooth_far hlt fun i hi t ht => by
        by_contra hc
        exact hn ⟨i, hi, by omega, by omega⟩)
      exact absurd a1 (not_le.mpr this)
    obtain ⟨k, hk, n1, n2⟩ := hnear
    have h1 := a2 (o + 8 * k) (by omega) (by omega)
    have h2 := up (2 * k) (by omega)
    rw [show o + 4 * (2 * k) = o + 8 * k by omega] at h2
    have hm : ∃ m, m ≤ 2 * N ∧ j = o + 4 * m := by
      by_contra hn
      have := low j hlt fun m hm e => hn ⟨m, hm, e⟩
      omega
    obtain ⟨m, hm, rfl⟩ := hm
    refine ⟨by omega, ?_⟩
    by_contra hc
    have e : m = 2 * N := by omega
    rw [left m hm, right m hm, if_neg (by omega : ¬ m = 0), if_pos e] at a3
    simp at a3
  refine (getLine_none_iff (by omega)).mpr ⟨l, hl, no_gaps (findLines_sorted hl).1 fun a ha b hb hab => ?_⟩
  have h1 := only a ha
  have h2 := only b hb
  refine ⟨o + 4 * ((a - o) / 4 + 1), yes _ (by omega), by omega, by omega⟩

/-- A list of equal scores: `get_line` panics. -/
theorem getLine_constant {n H : Nat} (hn : 8 ≤ n) (h0 : 0 < H) (h24 : H ≤ 2 ^ 24) : getLine (List.replicate n H) = none := by
  have hg : ∀ j, j < n → (List.replicate n H).getD j 0 = H := by
    intro j hj
    rw [List.getD_eq_getElem?_getD, List.getElem?_replicate, if_pos hj]
    rfl
  have hs : ∀ j, j < n → smooth (List.replicate n H) j = H := by
    intro j hj
    have h1 := le_smooth (List.replicate n H) j
    rw [hg j hj] at h1
    have h2 := smooth_lt (x := List.replicate n H) (j := j) (c := H + 1) (by rw [hg j hj]; omega)
      (.inl fun u _ _ _ => by rw [hg _ (by omega)]; omega)
    omega
  have hlen : (List.replicate n H).length = n := List.length_replicate
  obtain ⟨l, hl⟩ := findLines_some (x := List.replicate n H) (by rw [hlen]; exact hn)
  obtain ⟨th, t1, t2, t3⟩ := findLines_mem h0 h24 (fun v hv => (List.eq_of_mem_replicate hv).le)
    (List.mem_replicate.mpr ⟨by omega, rfl⟩) hl
  have key : ∀ j, j ∈ l ↔ j < n ∧ (min j 7 = min (n - 1 - j) 7 ∨ min j 7 + 1 = min (n - 1 - j) 7) := by
    intro j
    rw [t3, hlen]
    refine and_congr_right fun hj => ?_
    have hall : ∀ lo hi, hi ≤ n → ((rng lo hi).filter fun k => decide (smooth (List.replicate n H) j ≤ smooth (List.replicate n H) k)).length = hi - lo := by
      intro lo hi hhi
      rw [List.filter_eq_self.mpr]
      · simp [rng]
      · intro k hk
        rw [mem_rng'] at hk
        rw [hs j hj, hs k (by omega)]
        simp
    rw [isLine_true hj, hall _ _ (by omega), hall _ _ (by omega), hs j hj]
    constructor
    · rintro ⟨-, -, h⟩
      omega
    · intro h
      exact ⟨t1, fun k _ _ => (hs k (by omega)).le, by omega⟩
  refine (getLine_none_iff (by rw [hlen]; exact hn)).mpr ⟨l, hl, no_gaps (findLines_sorted hl).1 fun a ha b hb hab => ?_⟩
  rw [key] at ha hb
  exact ⟨a + 1, (key _).mpr (by omega), by omega, by omega⟩

end Ms.Properties
