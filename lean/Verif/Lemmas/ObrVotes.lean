import Verif.Lemmas.ObrLines

/-! # The votes for size and place of the cells -/

namespace Ms.Properties
open Ms Ms.Spec

/-- the search for the greatest entry -/
def voteFold (v : Nat → Nat → Nat) (m : Nat × Nat × Nat) (ps : List (Nat × Nat)) : Nat × Nat × Nat :=
  ps.foldl (fun m p => if v p.1 p.2 > m.1 then (v p.1 p.2, p.1, p.2) else m) m

theorem voteFold_keep {v : Nat → Nat → Nat} : ∀ {ps : List (Nat × Nat)} {m : Nat × Nat × Nat}, (∀ p ∈ ps, v p.1 p.2 ≤ m.1) →
    voteFold v m ps = m
  | [], _, _ => rfl
  | p :: ps, m, h => by
    unfold voteFold
    rw [List.foldl_cons, if_neg (by have := h p (by simp); omega)]
    exact voteFold_keep fun q hq => h q (by simp [hq])

theorem voteFold_mem {v : Nat → Nat → Nat} : ∀ {ps : List (Nat × Nat)} {m : Nat × Nat × Nat},
    (voteFold v m ps = m ∧ ∀ p ∈ ps, v p.1 p.2 ≤ m.1) ∨
    (∃ p ∈ ps, voteFold v m ps = (v p.1 p.2, p.1, p.2) ∧ m.1 < v p.1 p.2 ∧ ∀ q ∈ ps, v q.1 q.2 ≤ v p.1 p.2)
  | [], _ => .inl ⟨rfl, by simp⟩
  | p :: ps, m => by
    by_cases h : v p.1 p.2 > m.1
    · right
      have e : voteFold v m (p :: ps) = voteFold v (v p.1 p.2, p.1, p.2) ps := by
        unfold voteFold
        rw [List.foldl_cons, if_pos h]
      rw [e]
      rcases voteFold_mem (v := v) (ps := ps) (m := (v p.1 p.2, p.1, p.2)) with ⟨h1, h2⟩ | ⟨q, hq, h1, h2, h3⟩
      · refine ⟨p, by simp, h1, h, fun q hq => ?_⟩
        rcases List.mem_cons.mp hq with rfl | hq
        · exact le_rfl
        · exact h2 q hq
      · refine ⟨q, by simp [hq], h1, lt_trans h h2, fun r hr => ?_⟩
        rcases List.mem_cons.mp hr with rfl | hr
        · exact h2.le
        · exact h3 r hr
    · have e : voteFold v m (p :: ps) = voteFold v m ps := by
        unfold voteFold
        rw [List.foldl_cons, if_neg h]
      rw [e]
      rcases voteFold_mem (v := v) (ps := ps) (m := m) with ⟨h1, h2⟩ | ⟨q, hq, h1, h2, h3⟩
      · refine .inl ⟨h1, fun q hq => ?_⟩
        rcases List.mem_cons.mp hq with rfl | hq
        · omega
        · exact h2 q hq
      · refine .inr ⟨q, by simp [hq], h1, h2, fun r hr => ?_⟩
        rcases List.mem_cons.mp hr with rfl | hr
        · omega
        · exact h3 r hr

theorem bestVote_eq (v : Nat → Nat → Nat) (is js : List Nat) :
    bestVote v is js = (voteFold v (0, 0, 0) (is.flatMap fun i => js.map fun j => (i, j))).2 := rfl

/-- the first of the greatest entries is taken -/
theorem bestVote_first {v : Nat → Nat → Nat} {is js : List Nat} {pre post : List (Nat × Nat)} {p : Nat × Nat}
    (hl : (is.flatMap fun i => js.map fun j => (i, j)) = pre ++ p :: post) (h0 : 0 < v p.1 p.2)
    (h1 : ∀ q ∈ pre, v q.1 q.2 < v p.1 p.2) (h2 : ∀ q ∈ post, v q.1 q.2 ≤ v p.1 p.2) : bestVote v is js = p := by
  rw [bestVote_eq, hl]
  unfold voteFold
  rw [List.foldl_append, List.foldl_cons]
  have hm : (voteFold v (0, 0, 0) pre).1 < v p.1 p.2 := by
    rcases voteFold_mem (v := v) (ps := pre) (m := (0, 0, 0)) with ⟨a1, -⟩ | ⟨q, hq, a1, -, -⟩
    · rw [a1]; exact h0
    · rw [a1]; exact h1 q hq
  unfold voteFold at hm
  rw [if_pos hm]
  exact congrArg Prod.snd (voteFold_keep (v := v) (ps := post) (m := (v p.1 p.2, p.1, p.2)) h2)

/-- a place that some line votes for -/
theorem votes_pos {lines : List Nat} {lo hi maxx i y L n : Nat} (hL : L ∈ lines) (hn : n ∈ rng (L / hi) (L / lo + 1))
    (h : n * y / 4 ≤ L ∧ L ≤ maxx + n * y / 4 ∧ L - n * y / 4 = i) : 0 < votes lines lo hi maxx i y := by
  unfold votes
  refine Nat.lt_of_lt_of_le ?_ (List.single_le_sum (by simp) _ (List.mem_map_of_mem hL))
  refine Nat.lt_of_lt_of_le ?_ (List.single_le_sum (by simp) _ (List.mem_map_of_mem hn))
  rw [if_pos h]
  omega

/-- the vote: nothing when the estimate exceeds 205, else a size between `lo` and `hi` -/
theorem vote_range {lines : List Nat} {size a : Nat} (h5 : 5 < size) (ha : a ∈ lines) :
    let hi := min 200 (size + 5)
    let lo := max 8 (size - 5)
    let best := bestVote (votes lines lo hi (a + 7)) (List.range (a + 8)) (rng (lo * 4) (hi * 4 + 1))
    (206 ≤ size → best = (0, 0)) ∧ (size < 206 → best.1 ≤ a + 7 ∧ lo * 4 ≤ best.2 ∧ best.2 ≤ hi * 4) := by
  intro hi lo best
  constructor
  · intro h
    have e : rng (lo * 4) (hi * 4 + 1) = [] := by
      unfold rng
      rw [show hi * 4 + 1 - lo * 4 = 0 by omega]
      rfl
    show bestVote _ _ (rng (lo * 4) (hi * 4 + 1)) = _
    rw [e, bestVote_eq]
    have : (List.flatMap (fun i => List.map (fun j => (i, j)) ([] : List Nat)) (List.range (a + 8))) = [] := by simp
    rw [this]
    rfl
  · intro h
    have hlo : lo ≤ hi := by omega
    have hhi : 0 < hi := by omega
    have e : best = (voteFold (votes lines lo hi (a + 7)) (0, 0, 0)
      ((List.range (a + 8)).flatMap fun i => (rng (lo * 4) (hi * 4 + 1)).map fun j => (i, j))).2 := rfl
    rcases voteFold_mem (v := votes lines lo hi (a + 7)) (m := (0, 0, 0))
      (ps := (List.range (a + 8)).flatMap fun i => (rng (lo * 4) (hi * 4 + 1)).map fun j => (i, j)) with ⟨-, h2⟩ | ⟨p, hp, h1, -, -⟩
    · exfalso
      -- the first line votes for the greatest size
      have hdiv : a / hi * (hi * 4) / 4 = a / hi * hi := by
        rw [← Nat.mul_assoc]
        exact Nat.mul_div_cancel _ (by omega)
      have hmul := Nat.div_mul_le_self a hi
      have hv := votes_pos (lines := lines) (lo := lo) (hi := hi) (maxx := a + 7) (i := a - a / hi * hi) (y := hi * 4) ha
        (n := a / hi) (by
          rw [mem_rng']
          exact ⟨le_rfl, Nat.lt_succ_of_le (Nat.div_le_div_left hlo (by omega))⟩) (by rw [hdiv]; exact ⟨hmul, by omega, rfl⟩)
      have := h2 (a - a / hi * hi, hi * 4) (by
        rw [List.mem_flatMap]
        refine ⟨_, List.mem_range.mpr (by omega), List.mem_map.mpr ⟨hi * 4, mem_rng'.mpr (by omega), rfl⟩⟩)
      simp only at this
      omega
    · rw [e, h1]
      rw [List.mem_flatMap] at hp
      obtain ⟨i, hi', hp⟩ := hp
      rw [List.mem_map] at hp
      obtain ⟨j, hj, rfl⟩ := hp
      rw [mem_rng'] at hj
      have := List.mem_range.mp hi'
      exact ⟨by show i ≤ a + 7; omega, by show lo * 4 ≤ j; omega, by show j ≤ hi * 4; omega⟩

/-- quarters below `2^24` are exact -/
theorem fl32_quarter {n : Nat} (h : n ≤ 2 ^ 24) : fl32 (fl32 n / 4) = (n : ℚ) / 4 := by
  rw [fl32_nat h]
  refine fl32_single ⟨n, -2, by rw [abs_of_nonneg (by omega)]; exact_mod_cast h, ?_⟩
  rw [zpow_neg]
  norm_num
  ring

/-- the cells counted fit into the length -/
theorem cellCount_le {d y : Nat} (hd : d ≤ 2 ^ 21) (h1 : 0 < y) (h2 : y ≤ 2 ^ 24) : cellCount d y * y ≤ 4 * d := by
  unfold cellCount
  rw [if_neg (by omega), fl32_quarter h2, fl32_nat (n := d) (by omega)]
  have hy : (0 : ℚ) < y := by exact_mod_cast h1
  have h0 : (0 : ℚ) ≤ (d : ℚ) / ((y : ℚ) / 4) := by positivity
  have hle := fl32_le h0
  have hn : ((toIdx (fl32 ((d : ℚ) / ((y : ℚ) / 4))) : Nat) : ℚ) ≤ fl32 ((d : ℚ) / ((y : ℚ) / 4)) := by
    unfold toIdx
    have hf := Int.floor_le (fl32 ((d : ℚ) / ((y : ℚ) / 4)))
    have hp : 0 ≤ ⌊fl32 ((d : ℚ) / ((y : ℚ) / 4))⌋ := Int.floor_nonneg.mpr (fl32_nonneg h0)
    have : ((⌊fl32 ((d : ℚ) / ((y : ℚ) / 4))⌋.toNat : Nat) : ℚ) = ((⌊fl32 ((d : ℚ) / ((y : ℚ) / 4))⌋ : ℤ) : ℚ) := by
      rw [← Int.cast_natCast, Int.toNat_of_nonneg hp]
    rw [this]
    exact hf
  generalize toIdx (fl32 ((d : ℚ) / ((y : ℚ) / 4))) = n at *
  have e : (d : ℚ) / ((y : ℚ) / 4) * y = 4 * d := by
    field_simp
  have hdq : (d : ℚ) ≤ 2 ^ 21 := by exact_mod_cast hd
  have h3 : (n : ℚ) * y < 4 * d + 1 := by
    have h4 : (n : ℚ) * y ≤ (d : ℚ) / ((y : ℚ) / 4) * (1 + 1 / 2 ^ 24) * y := mul_le_mul_of_nonneg_right (hn.trans hle) hy.le
    have h5 : (d : ℚ) / ((y : ℚ) / 4) * (1 + 1 / 2 ^ 24) * y = 4 * d * (1 + 1 / 2 ^ 24) := by rw [← e]; ring
    rw [h5] at h4
    norm_num at h4 hdq
    have hdq' : (d : ℚ) ≤ 2097152 := by exact_mod_cast hdq
    linarith
  have : n * y < 4 * d + 1 := by exact_mod_cast h3
  omega

/-- What `get_line` returns: with an estimate of at least 206 the size 0 and the greatest number of cells there is, otherwise a
size from 8 to 200 in quarters. -/
theorem getLine_some {x : List Nat} {p : ℚ} {i n : Nat} (h8 : 8 ≤ x.length) (h : getLine x = some (p, i, n)) :
    ∃ l size, findLines x = some l ∧ size ∈ gaps l ∧
      (206 ≤ size → p = 0 ∧ i = 0 ∧ n = 2 ^ 64 - 1) ∧
      (size < 206 → ∃ y : Nat, p = (y : ℚ) / 4 ∧ 32 ≤ y ∧ y ≤ 800 ∧ 4 * (size - 5) ≤ y ∧ y ≤ 4 * (size + 5) ∧ i < x.length + 7 ∧
        (x.length < 2 ^ 21 → n * y ≤ 4 * (x.length + 1))) := by
  obtain ⟨l, hl⟩ := findLines_some h8
  have hg : gaps l ≠ [] := by
    intro e
    have := (getLine_none_iff h8).mpr ⟨l, hl, e⟩
    rw [this] at h
    cases h
  obtain ⟨s, s1, s2⟩ := size_some hg
  obtain ⟨l', t1, t2, t3⟩ := trimLines_some s2
  have h5 := (mem_gaps s2).1
  have hne : l' ≠ [] := by
    rintro rfl
    simp at t2
  unfold getLine at h
  simp only [hl, Option.bind_eq_bind, Option.bind_some, s1, t1] at h
  rw [if_neg (by omega), List.head?_eq_some_head hne, List.getLast?_eq_some_getLast hne] at h
  have hv := vote_range (lines := l') h5 (List.head_mem hne)
  simp only at hv
  have ha : l'.head hne < x.length := (findLines_sorted hl).2 _ (t3.subset (List.head_mem hne))
  refine ⟨l, s, hl, s2, fun hs => ?_, fun hs => ?_⟩
  · have e := hv.1 hs
    simp only [Option.bind_some] at h
    rw [e] at h
    cases h
    refine ⟨?_, rfl, rfl⟩
    show fl32 (fl32 ((0 : Nat) : ℚ) / 4) = 0
    rw [fl32_quarter (by norm_num)]
    simp
  · obtain ⟨e1, e2, e3⟩ := hv.2 hs
    simp only [Option.bind_some] at h
    cases h
    refine ⟨_, fl32_quarter (by omega), by omega, by omega, by omega, by omega, by omega, fun hx => ?_⟩
    have hb : l'.getLast hne < x.length := (findLines_sorted hl).2 _ (t3.subset (List.getLast_mem hne))
    have hle := cellCount_le (d := l'.getLast hne - l'.head hne + 2)
      (y := (bestVote (votes l' (max 8 (s - 5)) (min 200 (s + 5)) (l'.head hne + 7)) (List.range (l'.head hne + 8))
        (rng (max 8 (s - 5) * 4) (min 200 (s + 5) * 4 + 1))).2) (by omega) (by omega) (by omega)
    omega

end Ms.Properties
