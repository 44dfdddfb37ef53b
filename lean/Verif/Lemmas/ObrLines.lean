import Verif.Lemmas.ObrTotal

/-! # The scores of the columns, and the lines found in a list of scores -/

namespace Ms.Properties
open Ms Ms.Spec

theorem bestWalk_unique {edge : Nat → Nat → Bool} {lo hi a k s s' : Nat} (h : BestWalk edge lo hi a k s)
    (h' : BestWalk edge lo hi a k s') : s = s' := by
  obtain ⟨⟨q, q1, q2, q3⟩, hm⟩ := h
  obtain ⟨⟨p, p1, p2, p3⟩, hm'⟩ := h'
  have a1 := hm p p1 p2
  have a2 := hm' q q1 q2
  omega

theorem mapM_spec {α β : Type} {f : α → Option β} {P : α → β → Prop} : ∀ {l : List α}, (∀ a ∈ l, ∃ b, f a = some b ∧ P a b) →
    ∃ m, l.mapM f = some m ∧ List.Forall₂ P l m
  | [], _ => ⟨[], rfl, .nil⟩
  | a :: l, h => by
    obtain ⟨b, hb, hp⟩ := h a (by simp)
    obtain ⟨m, hm, hl⟩ := mapM_spec (f := f) (P := P) (l := l) (fun x hx => h x (by simp [hx]))
    exact ⟨b :: m, by simp [hb, hm], .cons hp hl⟩

theorem scores_spec {edge : Nat → Nat → Bool} {hit : Nat → Nat → Option Bool} {lo hi a b : Nat} (h : lo ≤ hi) (hab : a + 4 ≤ b)
    (hhit : ∀ i, lo < i → i ≤ hi → ∀ j, a ≤ j → j ≤ b → hit i j = some (edge i j)) :
    ∃ l, scores hit lo hi a b = some l ∧ l.length = b - a ∧
      ∀ t, t < b - a → BestWalk edge lo hi (stripStart a b t) (stripPlace a b t) (l.getD t 0) := by
  have sc : ∀ (c : Nat) (k : Fin 5) (d : Fin 5 → Nat), a ≤ c → c + 4 ≤ b → (∀ j : Fin 5, d j = apart j.val k.val) →
      ∃ s, score hit lo hi c k d = some s ∧ BestWalk edge lo hi c k.val s := fun c k d h1 h2 hd =>
    score_best h hd fun i i1 i2 j hj => hhit i i1 i2 _ (by omega) (by omega)
  obtain ⟨s0, a0, b0⟩ := sc a 0 ![0, 1, 2, 3, 4] le_rfl hab (by decide)
  obtain ⟨s1, a1, b1⟩ := sc a 1 ![1, 0, 1, 2, 3] le_rfl hab (by decide)
  obtain ⟨s3, a3, b3⟩ := sc (b - 4) 3 ![3, 2, 1, 0, 1] (by omega) (by omega) (by decide)
  obtain ⟨s4, a4, b4⟩ := sc (b - 4) 4 ![4, 3, 2, 1, 0] (by omega) (by omega) (by decide)
  obtain ⟨m, m1, m2⟩ := mapM_spec (f := fun c => score hit lo hi c 2 ![2, 1, 0, 1, 2])
    (P := fun c s => BestWalk edge lo hi c 2 s) (l := rng a (b - 4)) (fun c hc => by
      rw [mem_rng'] at hc
      exact sc c 2 ![2, 1, 0, 1, 2] hc.1 (by omega) (by decide))
  have ml : m.length = b - 4 - a := by
    rw [← m2.length_eq]
    simp [rng]
  refine ⟨[s0, s1] ++ m ++ [s3, s4], ?_, ?_, ?_⟩
  · unfold scores
    simp only [a0, a1, a3, a4, m1, Option.bind_eq_bind, Option.bind_some]
    rw [if_neg (by omega)]
    rfl
  · simp [ml]
    omega
  · intro t ht
    unfold stripStart stripPlace
    by_cases h0 : t < 2
    · rw [if_pos h0, if_pos h0]
      have : t = 0 ∨ t = 1 := by omega
      rcases this with rfl | rfl
      · exact b0
      · exact b1
    · rw [if_neg h0, if_neg h0]
      by_cases h1 : t + 2 < b - a
      · rw [if_pos h1, if_pos h1]
        have e : (([s0, s1] ++ m ++ [s3, s4]).getD t 0) = m.getD (t - 2) 0 := by
          rw [List.getD_eq_getElem?_getD, List.getD_eq_getElem?_getD, List.getElem?_append_left (by simp [ml]; omega),
            List.getElem?_append_right (by simp; omega)]
          rfl
        rw [e]
        rw [List.forall₂_iff_get] at m2
        have := m2.2 (t - 2) (by simp [rng]; omega) (by rw [ml]; omega)
        rw [List.getD_eq_getElem?_getD, List.getElem?_eq_getElem (by rw [ml]; omega), Option.getD_some]
        have e2 : (rng a (b - 4)).get ⟨t - 2, by simp [rng]; omega⟩ = a + t - 2 := by
          simp [rng]
          omega
        rw [e2] at this
        exact this
      · rw [if_neg h1, if_neg h1]
        have e : ∀ u, u < 2 → (([s0, s1] ++ m ++ [s3, s4]).getD (b - a - 2 + u) 0) = [s3, s4].getD u 0 := by
          intro u hu
          rw [List.getD_eq_getElem?_getD, List.getD_eq_getElem?_getD, List.getElem?_append_right (by simp [ml]; omega)]
          congr 2
          simp [ml]
          omega
        have : t = b - a - 2 + 0 ∨ t = b - a - 2 + 1 := by omega
        rcases this with rfl | rfl
        · rw [e 0 (by omega), show b - a - 2 + 0 + 5 - (b - a) = 3 by omega]
          exact b3
        · rw [e 1 (by omega), show b - a - 2 + 1 + 5 - (b - a) = 4 by omega]
          exact b4

theorem lineLevel_some {x : List Nat} (h : 0 < x.length) : ∃ th, lineLevel x = some th := by
  have hl := length_sortN x
  have hi := toIdx_part (n := x.length) (q := 85 / 100) h (by norm_num) (by norm_num)
  rw [mul_comm] at hi
  unfold lineLevel
  simp only
  rw [List.getElem?_eq_getElem (by rw [hl]; exact hi)]
  have hne : sortN x ≠ [] := by
    intro e
    rw [e] at hl
    simp at hl
    omega
  rw [List.getLast?_eq_some_getLast hne]
  exact ⟨_, rfl⟩

theorem findLines_some {x : List Nat} (h : 8 ≤ x.length) : ∃ l, findLines x = some l := by
  obtain ⟨th, ht⟩ := lineLevel_some (x := x) (by omega)
  unfold findLines
  rw [if_neg (by omega), ht]
  exact ⟨_, rfl⟩

/-- the lines found stand in increasing order, within the list -/
theorem findLines_sorted {x : List Nat} {l : List Nat} (h : findLines x = some l) :
    l.Pairwise (· < ·) ∧ ∀ i ∈ l, i < x.length := by
  unfold findLines at h
  split at h
  · cases h
  · cases ht : lineLevel x with
    | none => rw [ht] at h; cases h
    | some th =>
      rw [ht] at h
      cases h
      exact ⟨List.Pairwise.filter _ List.pairwise_lt_range, fun i hi => List.mem_range.mp (List.mem_of_mem_filter hi)⟩

/-- a distance is not too narrow for itself -/
theorem narrowGap_self {d : Nat} (h : 0 < d) : narrowGap d d = false := by
  unfold narrowGap
  rw [decide_eq_false_iff_not, not_le]
  have h0 : (0 : ℚ) < d := by exact_mod_cast h
  have a := fl32_ge h0.le
  have pos : 0 < fl32 d := by
    refine lt_of_lt_of_le ?_ a
    have : (0 : ℚ) < 1 - 1 / 2 ^ 24 := by norm_num
    positivity
  have b := fl32_le (x := 8 / 10) (by norm_num)
  have b0 := fl32_nonneg (x := 8 / 10) (by norm_num)
  have c := fl32_le (mul_nonneg pos.le b0)
  refine lt_of_le_of_lt c ?_
  have b2 : fl32 (8 / 10) ≤ 81 / 100 := by
    refine le_trans b ?_
    norm_num
  have : fl32 d * fl32 (8 / 10) ≤ fl32 d * (81 / 100) := mul_le_mul_of_nonneg_left b2 pos.le
  norm_num at this ⊢
  nlinarith

theorem mem_gaps {l : List Nat} {d : Nat} (h : d ∈ gaps l) : 5 < d ∧ ∃ i, ∃ h : i + 1 < l.length, l[i + 1] - l[i] = d := by
  unfold gaps at h
  rw [List.mem_filter] at h
  obtain ⟨h1, h2⟩ := h
  refine ⟨by simpa using h2, ?_⟩
  obtain ⟨i, hi, e⟩ := List.mem_iff_getElem.mp h1
  rw [List.length_zipWith, List.length_tail] at hi
  rw [List.getElem_zipWith, List.getElem_tail] at e
  exact ⟨i, by omega, e⟩

/-- when the estimate is the distance of two neighbouring lines, at least these two lines are left -/
theorem trimLines_some {l : List Nat} {size : Nat} (h : size ∈ gaps l) :
    ∃ l', trimLines l size = some l' ∧ 2 ≤ l'.length ∧ l'.Sublist l := by
  obtain ⟨h5, i, hi, e⟩ := mem_gaps h
  have hs := narrowGap_self (d := size) (by omega)
  unfold trimLines
  rw [List.getElem?_eq_getElem (show 0 < l.length by omega), List.getElem?_eq_getElem (show 1 < l.length by omega)]
  simp only [Option.bind_eq_bind, Option.bind_some]
  -- after the first test
  have key : ∃ m, (if narrowGap (l[1] - l[0]) size = true then l.tail else l) = m ∧ m.Sublist l ∧
      ∃ j, ∃ hj : j + 1 < m.length, m[j + 1] - m[j] = size := by
    by_cases hg : narrowGap (l[1] - l[0]) size = true
    · rw [if_pos hg]
      have hi0 : i ≠ 0 := by
        rintro rfl
        rw [e, hs] at hg
        cases hg
      refine ⟨l.tail, rfl, List.tail_sublist l, i - 1, by rw [List.length_tail]; omega, ?_⟩
      rw [List.getElem_tail, List.getElem_tail]
      simp only [show i - 1 + 1 = i by omega]
      exact e
    · rw [if_neg hg]
      exact ⟨l, rfl, List.Sublist.refl l, i, hi, e⟩
  obtain ⟨m, hm, msub, j, hj, hje⟩ := key
  rw [hm]
  rw [if_neg (by omega), List.getElem?_eq_getElem (show m.length - 2 < m.length by omega),
    List.getElem?_eq_getElem (show m.length - 1 < m.length by omega)]
  simp only [pure_bind, Option.bind_some]
  by_cases hg : narrowGap (m[m.length - 1] - m[m.length - 2]) size = true
  · have hj2 : j + 2 ≠ m.length := by
      intro ee
      have e1 : j + 1 = m.length - 1 := by omega
      have e2 : j = m.length - 2 := by omega
      simp only [← e1, ← e2] at hg
      rw [hje, hs] at hg
      cases hg
    refine ⟨m.dropLast, by rw [if_pos hg]; rfl, by rw [List.length_dropLast]; omega, (List.dropLast_sublist m).trans msub⟩
  · exact ⟨m, by rw [if_neg hg]; rfl, by omega, msub⟩

theorem mem_sortN {l : List Nat} {a : Nat} : a ∈ sortN l ↔ a ∈ l := List.mem_mergeSort

/-- the estimate of the size is a distance of two neighbouring lines, exactly when there is one greater than 5 -/
theorem size_some {g : List Nat} (h : g ≠ []) :
    ∃ s, (sortN g)[toIdx (fl32 (fl32 (sortN g).length * fl32 (4 / 10)))]? = some s ∧ s ∈ g := by
  have hpos : 0 < (sortN g).length := by
    rw [length_sortN]
    exact List.length_pos_iff.mpr h
  have hi := toIdx_part (q := 4 / 10) hpos (by norm_num) (by norm_num)
  rw [List.getElem?_eq_getElem hi]
  exact ⟨_, rfl, mem_sortN.mp (List.getElem_mem hi)⟩

/-- `get_line` panics exactly when no two neighbouring lines are more than 5 apart. -/
theorem getLine_none_iff {x : List Nat} (h : 8 ≤ x.length) : getLine x = none ↔ ∃ l, findLines x = some l ∧ gaps l = [] := by
  obtain ⟨l, hl⟩ := findLines_some h
  unfold getLine
  simp only [hl, Option.bind_eq_bind, Option.bind_some]
  constructor
  · intro hn
    refine ⟨l, rfl, ?_⟩
    by_contra hg
    obtain ⟨s, s1, s2⟩ := size_some hg
    obtain ⟨l', t1, t2, t3⟩ := trimLines_some s2
    have := (mem_gaps s2).1
    have hne : l' ≠ [] := by
      rintro rfl
      simp at t2
    simp only [s1, t1, Option.bind_some] at hn
    rw [if_neg (by omega), List.head?_eq_some_head hne, List.getLast?_eq_some_getLast hne] at hn
    cases hn
  · rintro ⟨l', hl', hg⟩
    cases hl'
    have e : sortN ([] : List Nat) = [] := by simp [sortN]
    rw [hg, e]
    rfl

end Ms.Properties
