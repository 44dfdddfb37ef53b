import Verif.Lemmas.ObrGrid

/-! # Lists of scores with lines at any places, not too near to each other -/

namespace Ms.Properties
open Ms Ms.Spec

section
variable {x : List Nat} {H w : Nat} {L : List Nat}

theorem spaced_cases {a b : Nat} (hs : L.Pairwise fun a b => a + 8 + w ≤ b) (ha : a ∈ L) (hb : b ∈ L) :
    a = b ∨ a + 8 + w ≤ b ∨ b + 8 + w ≤ a := by
  obtain ⟨i, hi, rfl⟩ := List.mem_iff_getElem.mp ha
  obtain ⟨j, hj, rfl⟩ := List.mem_iff_getElem.mp hb
  rw [List.pairwise_iff_getElem] at hs
  rcases Nat.lt_trichotomy i j with h | rfl | h
  · exact .inr (.inl (hs i j hi hj h))
  · exact .inl rfl
  · exact .inr (.inr (hs j i hj hi h))

theorem _root_.Ms.Spec.LinesAt.le (hx : LinesAt x H w L) (j : Nat) (hj : j < x.length) : x.getD j 0 ≤ H := by
  by_cases h : ∃ a ∈ L, ∃ t, t < w ∧ j = a + t
  · obtain ⟨a, ha, t, ht, rfl⟩ := h
    exact (hx.line a ha t ht).le
  · exact (hx.lower j hj fun a ha t ht e => h ⟨a, ha, t, ht, e⟩).le

theorem _root_.Ms.Spec.LinesAt.smooth_lt (hx : LinesAt x H w L) (hw : w ≤ 2) {j : Nat} (hj : j < x.length)
    (h : ∀ a ∈ L, ∀ t, t < w → j ≠ a + t) : smooth x j < H := by
  refine Properties.smooth_lt (hx.lower j hj h) ?_
  by_contra hc
  push Not at hc
  obtain ⟨⟨u, u1, u2, u3, u4⟩, v, v1, v2, v3, v4⟩ := hc
  have hpk : ∀ k, k < x.length → H ≤ x.getD k 0 → ∃ a ∈ L, ∃ t, t < w ∧ k = a + t := by
    intro k hk hH
    by_contra hn
    have := hx.lower k hk fun a ha t ht e => hn ⟨a, ha, t, ht, e⟩
    omega
  obtain ⟨a, ha, t, ht, e⟩ := hpk (j - u) (by omega) u4
  obtain ⟨a', ha', t', ht', e'⟩ := hpk (j + v) v3 v4
  have := spaced_cases hx.spaced ha ha'
  omega

theorem _root_.Ms.Spec.LinesAt.smooth_line (hx : LinesAt x H w L) {a t : Nat} (ha : a ∈ L) (ht : t < w) :
    smooth x (a + t) = H := by
  have h1 := le_smooth x (a + t)
  rw [hx.line a ha t ht] at h1
  have hf := hx.fits a ha
  refine le_antisymm ?_ h1
  have := Properties.smooth_lt (x := x) (j := a + t) (c := H + 1) (by
    have := hx.le _ (show a + t < x.length by omega); omega)
    (.inl fun u _ _ _ => by have := hx.le (a + t - u) (by omega); omega)
  omega

theorem _root_.Ms.Spec.LinesAt.smooth_far (hx : LinesAt x H w L) {j : Nat} (hj : j < x.length)
    (h : ∀ a ∈ L, ∀ t, t < w → j + 8 ≤ a + t ∨ a + t + 8 ≤ j) : 3 * smooth x j ≤ H := by
  have := Properties.smooth_lt (x := x) (j := j) (c := H / 3 + 1) (by
      have := hx.far j hj fun a ha t ht => by have := h a ha t ht; omega
      omega) (.inl fun u _ _ _ => by
      have := hx.far (j - u) (by omega) fun a ha t ht => by have := h a ha t ht; omega
      omega)
  omega

theorem _root_.Ms.Spec.LinesAt.isLine_iff (hx : LinesAt x H w L) (hw1 : 1 ≤ w) (hw : w ≤ 2) {th : ℚ}
    (h1 : th ≤ fl32 H) (h2 : ∀ v : Nat, 3 * v ≤ H → fl32 v < th) {j : Nat} (hj : j < x.length) :
    isLine (smooth x) x.length th j = true ↔ j ∈ L := by
  have hle : ∀ k, k < x.length → smooth x k ≤ H := by
    intro k hk
    by_cases h : ∃ a ∈ L, ∃ t, t < w ∧ k = a + t
    · obtain ⟨a, ha, t, ht, rfl⟩ := h
      exact (hx.smooth_line ha ht).le
    · exact (hx.smooth_lt hw hk fun a ha t ht e => h ⟨a, ha, t, ht, e⟩).le
  unfold isLine
  simp only [Bool.and_eq_true, Bool.or_eq_true, decide_eq_true_eq, List.all_eq_true, beq_iff_eq]
  constructor
  · rintro ⟨⟨a1, a2⟩, a3⟩
    have hnear : ∃ a ∈ L, ∃ t, t < w ∧ j < a + t + 8 ∧ a + t < j + 8 := by
      by_contra hn
      have := h2 _ (hx.smooth_far hj fun a ha t ht => by
        by_contra hc
        exact hn ⟨a, ha, t, ht, by omega, by omega⟩)
      exact absurd a1 (not_le.mpr this)
    obtain ⟨a, ha, t, ht, n1, n2⟩ := hnear
    have hfa := hx.fits a ha
    have hH := hx.smooth_line ha ht
    have hje : smooth x j = H := by
      by_cases e : j = a + t
      · rw [e]; exact hH
      · have := a2 (a + t) (by
          rw [List.mem_append, mem_rng', mem_rng']
          omega)
        have := hle j hj
        omega
    have hpk : ∃ a ∈ L, ∃ t, t < w ∧ j = a + t := by
      by_contra hn
      have := hx.smooth_lt hw hj fun a ha t ht e => hn ⟨a, ha, t, ht, e⟩
      omega
    obtain ⟨b, hb, t, ht, e⟩ := hpk
    by_cases ht0 : t = 0
    · rw [e, ht0, Nat.add_zero]; exact hb
    · exfalso
      have ht1 : t = 1 := by omega
      subst ht1
      have hl : 1 ≤ ((rng (max 7 j - 7) j).filter fun k => decide (smooth x j ≤ smooth x k)).length := by
        refine List.length_pos_of_mem (a := b) ?_
        rw [List.mem_filter, mem_rng', hje]
        have := hx.smooth_line hb (show 0 < w by omega)
        rw [Nat.add_zero] at this
        rw [this]
        exact ⟨by omega, by simp⟩
      have hr : ((rng (j + 1) (min x.length (j + 8))).filter fun k => decide (smooth x j ≤ smooth x k)) = [] := by
        rw [List.filter_eq_nil_iff]
        intro k hk
        rw [mem_rng'] at hk
        rw [hje, decide_eq_true_eq, not_le]
        refine hx.smooth_lt hw (by omega) fun a' ha' t' ht' ek => ?_
        have := spaced_cases hx.spaced hb ha'
        omega
      rw [hr] at a3
      simp only [List.length_nil] at a3
      omega
  · intro hjL
    have hfa := hx.fits j hjL
    have hje : smooth x j = H := by
      have := hx.smooth_line hjL (show 0 < w by omega)
      rwa [Nat.add_zero] at this
    refine ⟨⟨by rw [hje]; exact h1, fun k hk => ?_⟩, ?_⟩
    · rw [List.mem_append, mem_rng', mem_rng'] at hk
      rw [hje]
      exact hle k (by omega)
    · have hl : ((rng (max 7 j - 7) j).filter fun k => decide (smooth x j ≤ smooth x k)) = [] := by
        rw [List.filter_eq_nil_iff]
        intro k hk
        rw [mem_rng'] at hk
        rw [hje, decide_eq_true_eq, not_le]
        refine hx.smooth_lt hw (by omega) fun a' ha' t' ht' ek => ?_
        have := spaced_cases hx.spaced hjL ha'
        omega
      rw [hl]
      have hone : w = 1 ∨ w = 2 := by omega
      rcases hone with rfl | rfl
      · left
        have hr : ((rng (j + 1) (min x.length (j + 8))).filter fun k => decide (smooth x j ≤ smooth x k)) = [] := by
          rw [List.filter_eq_nil_iff]
          intro k hk
          rw [mem_rng'] at hk
          rw [hje, decide_eq_true_eq, not_le]
          refine hx.smooth_lt hw (by omega) fun a' ha' t' ht' ek => ?_
          have := spaced_cases hx.spaced hjL ha'
          omega
        rw [hr]
      · right
        have hsub : ((rng (j + 1) (min x.length (j + 8))).filter fun k => decide (smooth x j ≤ smooth x k)) = [j + 1] := by
          refine List.Pairwise.eq_of_mem_iff (r := (· < ·)) (List.Pairwise.filter _ (List.pairwise_lt_range')) (by simp) fun k => ?_
          rw [List.mem_filter, mem_rng', hje, decide_eq_true_eq, List.mem_singleton]
          constructor
          · rintro ⟨hk, hH⟩
            by_contra hne
            have := hx.smooth_lt hw (j := k) (by omega) fun a' ha' t' ht' ek => by
              have := spaced_cases hx.spaced hjL ha'
              omega
            omega
          · rintro rfl
            exact ⟨by omega, (hx.smooth_line hjL (show 1 < 2 by omega)).ge⟩
        rw [hsub]
        rfl

/-- exactly the given lines are found -/
theorem _root_.Ms.Spec.LinesAt.findLines (hx : LinesAt x H w L) (hw1 : 1 ≤ w) (hw : w ≤ 2) (hL : L ≠ []) (h8 : 8 ≤ x.length)
    (h0 : 0 < H) (h24 : H ≤ 2 ^ 24) : Ms.findLines x = some L := by
  have hmem : ∀ v ∈ x, v ≤ H := by
    intro v hv
    obtain ⟨i, hi, rfl⟩ := List.mem_iff_getElem.mp hv
    have := hx.le i hi
    rwa [List.getD_eq_getElem?_getD, List.getElem?_eq_getElem hi] at this
  have hH : H ∈ x := by
    obtain ⟨a, ha⟩ := List.exists_mem_of_ne_nil L hL
    have h1 := hx.line a ha 0 (by omega)
    have := hx.fits a ha
    rw [List.getD_eq_getElem?_getD, List.getElem?_eq_getElem (by omega), Option.getD_some] at h1
    rw [← h1]
    exact List.getElem_mem _
  obtain ⟨th, ht, t1, t2⟩ := lineLevel_between h0 h24 hmem hH
  unfold Ms.findLines
  rw [if_neg (by omega), ht, Option.map_some]
  refine congrArg some ?_
  refine List.Pairwise.eq_of_mem_iff (r := (· < ·)) (List.Pairwise.filter _ List.pairwise_lt_range)
    (hx.spaced.imp fun h => by omega) fun j => ?_
  rw [List.mem_filter, List.mem_range]
  constructor
  · rintro ⟨hj, hl⟩
    exact (hx.isLine_iff hw1 hw t1 t2 hj).mp hl
  · intro hj
    have := hx.fits j hj
    exact ⟨by omega, (hx.isLine_iff hw1 hw t1 t2 (by omega)).mpr hj⟩

end

/-- the scores of a picture of straight edges at the places `L` -/
theorem scores_lines {hit : Nat → Nat → Option Bool} {E F : Nat → Bool} {rows cols e : Nat} {L : List Nat} (hr : 2 ≤ rows) (hc : 5 ≤ cols)
    (hs : L.Pairwise fun a b => a + 10 ≤ b) (h4 : 4 ∉ L) (hN : ∀ a ∈ L, a + 5 ≤ cols)
    (hF : ∀ j, j < cols → (F j = true ↔ ∃ a ∈ L, j = a ∨ j = a + 1))
    (hhit : ∀ i, i < rows → ∀ j, j < cols → hit i j = some (E i || F j))
    (hE : ∃ i, 0 < i ∧ i < rows ∧ E i = false) (he : ((rng 1 rows).filter E).length ≤ e) (he3 : 3 * e < rows) :
    ∃ l, scores hit 0 (rows - 1) 0 (cols - 1) = some l ∧ l.length = cols - 1 ∧ LinesAt l (rows - 1) 2 L := by
  obtain ⟨l, l1, l2, l3⟩ := scores_spec (edge := fun i j => E i || F j) (hit := hit) (lo := 0) (hi := rows - 1) (a := 0)
    (b := cols - 1) (by omega) (by omega) (fun i _ hi j _ hj => hhit i (by omega) j (by omega))
  refine ⟨l, l1, by omega, hs, fun a ha => by have := hN a ha; omega, ?_, ?_, ?_⟩
  · intro a ha t ht
    have hl := hN a ha
    have hpl := stripPlace_le (a := 0) (b := cols - 1) (t := a + t) (by omega) (by omega)
    have hsum : stripStart 0 (cols - 1) (a + t) + stripPlace 0 (cols - 1) (a + t) = a + t := by
      unfold stripStart stripPlace
      split
      · omega
      · split <;> omega
    have := bestWalk_full hpl (l3 (a + t) (by omega)) (fun r _ _ => by
      rw [hsum]
      show (E r || F (a + t)) = true
      rw [(hF _ (by omega)).mpr ⟨a, ha, by omega⟩, Bool.or_true])
    omega
  · intro j hj hno
    obtain ⟨r, r0, r1, r2⟩ := hE
    have hsum : stripStart 0 (cols - 1) j + stripPlace 0 (cols - 1) j = j ∨
        (cols - 1 ≤ j + 2 ∧ stripStart 0 (cols - 1) j + stripPlace 0 (cols - 1) j = j + 1) := by
      unfold stripStart stripPlace
      split
      · omega
      · split <;> omega
    have := bestWalk_broken (i := r) (l3 j (by omega)) r0 (by omega) (by
      show (E r || F (stripStart 0 (cols - 1) j + stripPlace 0 (cols - 1) j)) = false
      rw [r2, Bool.false_or, Bool.eq_false_iff, Ne, hF _ (by omega)]
      rintro ⟨a, ha, h⟩
      have h0 := hno a ha 0 (by omega)
      have h1 := hno a ha 1 (by omega)
      have := hN a ha
      omega)
    omega
  · intro j hj hfar
    have hw := strip_within (a := 0) (b := cols - 1) (t := j) (by omega)
    have hclose : stripStart 0 (cols - 1) j ≤ j ∧ (j < 2 ∨ cols - 1 ≤ j + 2 ∨ stripStart 0 (cols - 1) j = j - 2) ∧
        (j < 2 → stripStart 0 (cols - 1) j = 0) ∧ (cols - 1 ≤ j + 2 → 2 ≤ j → stripStart 0 (cols - 1) j = cols - 5) := by
      unfold stripStart
      split
      · omega
      · split <;> omega
    have := bestWalk_across (E := E) (l3 j (by omega)) (by
      intro i c hi hi2 hc
      show (E i || F (stripStart 0 (cols - 1) j + c)) = E i
      have : F (stripStart 0 (cols - 1) j + c) = false := by
        rw [Bool.eq_false_iff, Ne, hF _ (by omega)]
        rintro ⟨a, ha, h⟩
        have h0 := hfar a ha 0 (by omega)
        have h1 := hfar a ha 1 (by omega)
        have hl := hN a ha
        have ha4 : a ≠ 4 := fun e => h4 (e ▸ ha)
        obtain ⟨c1, c2, c3, c4⟩ := hclose
        by_cases hj2 : j < 2
        · have := c3 hj2
          omega
        · by_cases hje : cols - 1 ≤ j + 2
          · have := c4 hje (by omega)
            omega
          · omega
      rw [this, Bool.or_false])
    rw [show 0 + 1 = 1 by rfl, show rows - 1 + 1 = rows by omega] at this
    omega

theorem sortN_eq {l m : List Nat} (hp : l.Perm m) (hm : m.Pairwise (· ≤ ·)) : sortN l = m := by
  refine List.Perm.eq_of_pairwise (le := (· ≤ ·)) (fun a b _ _ h1 h2 => Nat.le_antisymm h1 h2) ?_ hm ((List.mergeSort_perm _ _).trans hp)
  have := List.pairwise_mergeSort (le := fun a b : Nat => decide (a ≤ b)) (fun a b c => by simp; omega) (fun a b => by simp; omega) l
  exact this.imp fun h => by simpa using h

/-- the whole of `get_line`, from its lines -/
theorem getLine_of_lines {x L L' m : List Nat} {size a b : Nat} {best : Nat × Nat} (h : findLines x = some L) (hp : (gaps L).Perm m)
    (hm : m.Pairwise (· ≤ ·)) (hs : m[toIdx (fl32 (fl32 m.length * fl32 (4 / 10)))]? = some size) (h5 : 5 ≤ size)
    (ht : trimLines L size = some L') (ha : L'.head? = some a) (hb : L'.getLast? = some b)
    (hv : bestVote (votes L' (max 8 (size - 5)) (min 200 (size + 5)) (a + 7)) (List.range (a + 8))
      (rng (max 8 (size - 5) * 4) (min 200 (size + 5) * 4 + 1)) = best) :
    getLine x = some (fl32 (fl32 best.2 / 4), best.1, cellCount (b - a + 2) best.2) := by
  unfold getLine
  simp only [h, Option.bind_eq_bind, Option.bind_some, sortN_eq hp hm, hs, ht, ha, hb, hv]
  rw [if_neg (by omega)]
  rfl

end Ms.Properties
