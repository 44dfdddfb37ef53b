import Verif.Lemmas.Rounds

/-! The pair rule of `solve_minus` on a block, exactly. -/

namespace Ms
open Spec

/-- the cells that occur only in the first of two equations are mines, those that occur only in the second are safe -/
def Splits (σ : Pos → Bool) (x : List Pos) (e e' : Set Pos) : Prop :=
  (∀ t ∈ x, t ∈ e → t ∉ e' → σ t = true) ∧ ∀ t ∈ x, t ∈ e' → t ∉ e → σ t = false

/-- two equations with a common cell decide the cells that occur in only one of them -/
def PairSays (σ : Pos → Bool) (Q : Set Pos → Prop) (x : List Pos) (p : Pos) : Prop :=
  ∃ e e', Q e ∧ Q e' ∧ (∃ t ∈ x, t ∈ e ∧ t ∈ e') ∧ Splits σ x e e' ∧ (p ∈ e ∧ p ∉ e' ∨ p ∈ e' ∧ p ∉ e)

theorem minusPair_iff {σ : Pos → Bool} {B : Block} (h : Block01 B) (hs : SolvesB σ B) {i j : Nat} (hi : i < B.rows.length)
    (hj : j < B.rows.length) {e e' : Set Pos} (he : (B.rows.getD i ([], 0)).1 = B.x.map (ind e))
    (he' : (B.rows.getD j ([], 0)).1 = B.x.map (ind e')) {k : Nat} (hk : k < B.x.length) :
    (k ∈ (minusPair B i j).1 ∨ k ∈ (minusPair B i j).2) ↔
      (∃ t ∈ B.x, t ∈ e ∧ t ∈ e') ∧ (Splits σ B.x e e' ∨ Splits σ B.x e' e) ∧
        (B.x.getD k (0, 0) ∈ e ∧ B.x.getD k (0, 0) ∉ e' ∨ B.x.getD k (0, 0) ∈ e' ∧ B.x.getD k (0, 0) ∉ e) := by
  have hri := h _ (getD_rows_mem hi)
  have hrj := h _ (getD_rows_mem hj)
  have si := hs _ (getD_rows_mem hi)
  have sj := hs _ (getD_rows_mem hj)
  have hf := minusPair_forced h hi hj _ hs
  unfold minusPair at hf ⊢
  simp only at hf ⊢
  generalize B.rows.getD i ([], 0) = ri at *
  generalize B.rows.getD j ([], 0) = rj at *
  have e1 : ((List.range B.x.length).filter fun k =>
      decide (¬ (ri.1.getD k 0 ≥ 1 ∧ rj.1.getD k 0 ≥ 1) ∧ ri.1.getD k 0 - rj.1.getD k 0 = 1)) =
      (List.range B.x.length).filter fun k => decide (ri.1.getD k 0 = 1 ∧ rj.1.getD k 0 = 0) := by
    apply List.filter_congr
    intro k _
    rw [decide_eq_decide]
    rcases getD_mem01 hri.2 k with e | e <;> rcases getD_mem01 hrj.2 k with e' | e' <;> rw [e, e'] <;> decide
  have e2 : ((List.range B.x.length).filter fun k =>
      decide (¬ (ri.1.getD k 0 ≥ 1 ∧ rj.1.getD k 0 ≥ 1) ∧ ri.1.getD k 0 - rj.1.getD k 0 = -1)) =
      (List.range B.x.length).filter fun k => decide (rj.1.getD k 0 = 1 ∧ ri.1.getD k 0 = 0) := by
    apply List.filter_congr
    intro k _
    rw [decide_eq_decide]
    rcases getD_mem01 hri.2 k with e | e <;> rcases getD_mem01 hrj.2 k with e' | e' <;> rw [e, e'] <;> decide
  rw [e1, e2] at hf ⊢
  have hP : ∀ k, k ∈ ((List.range B.x.length).filter fun k => decide (ri.1.getD k 0 = 1 ∧ rj.1.getD k 0 = 0)) ↔
      k < B.x.length ∧ B.x.getD k (0, 0) ∈ e ∧ B.x.getD k (0, 0) ∉ e' := by
    intro k
    rw [List.mem_filter, List.mem_range, decide_eq_true_eq]
    refine and_congr_right fun hk => ?_
    rw [he, he', getD_map_lt _ _ hk, getD_map_lt _ _ hk, ind_eq_one, ind_eq_zero]
  have hN : ∀ k, k ∈ ((List.range B.x.length).filter fun k => decide (rj.1.getD k 0 = 1 ∧ ri.1.getD k 0 = 0)) ↔
      k < B.x.length ∧ B.x.getD k (0, 0) ∈ e' ∧ B.x.getD k (0, 0) ∉ e := by
    intro k
    rw [List.mem_filter, List.mem_range, decide_eq_true_eq]
    refine and_congr_right fun hk => ?_
    rw [he, he', getD_map_lt _ _ hk, getD_map_lt _ _ hk, ind_eq_one, ind_eq_zero]
  have hany : ((List.range B.x.length).any fun k => decide (ri.1.getD k 0 ≥ 1 ∧ rj.1.getD k 0 ≥ 1)) = true ↔
      ∃ t ∈ B.x, t ∈ e ∧ t ∈ e' := by
    rw [List.any_eq_true]
    constructor
    · rintro ⟨k, h1, h2⟩
      rw [decide_eq_true_eq] at h2
      have hk := List.mem_range.mp h1
      rw [he, he', getD_map_lt _ _ hk, getD_map_lt _ _ hk] at h2
      refine ⟨B.x.getD k (0, 0), getD_mem_of_lt _ hk, ?_, ?_⟩
      · rw [← ind_eq_one]; rcases ind01 e (B.x.getD k (0, 0)) with h | h <;> omega
      · rw [← ind_eq_one]; rcases ind01 e' (B.x.getD k (0, 0)) with h | h <;> omega
    · rintro ⟨t, h1, h2, h3⟩
      obtain ⟨k, hk, rfl⟩ := mem_index h1
      refine ⟨k, List.mem_range.mpr hk, ?_⟩
      rw [decide_eq_true_eq, he, he', getD_map_lt _ _ hk, getD_map_lt _ _ hk, ind_eq_one.mpr h2, ind_eq_one.mpr h3]
      decide
  have hsp : Splits σ B.x e e' → lhs σ ri.1 B.x - lhs σ rj.1 B.x = diffCount ri.1 rj.1 B.x.length := by
    rintro ⟨h1, h2⟩
    refine diff_exact σ ri.1 rj.1 B.x hri.1 hrj.1 hri.2 hrj.2 fun k hk => ?_
    rw [he, he', getD_map_lt _ _ hk, getD_map_lt _ _ hk, ind_eq_one, ind_eq_zero, ind_eq_one, ind_eq_zero]
    exact ⟨fun a b => h1 _ (getD_mem_of_lt _ hk) a b, fun a b => h2 _ (getD_mem_of_lt _ hk) b a⟩
  have hsp' : Splits σ B.x e' e → lhs σ rj.1 B.x - lhs σ ri.1 B.x = diffCount rj.1 ri.1 B.x.length := by
    rintro ⟨h1, h2⟩
    refine diff_exact σ rj.1 ri.1 B.x hrj.1 hri.1 hrj.2 hri.2 fun k hk => ?_
    rw [he, he', getD_map_lt _ _ hk, getD_map_lt _ _ hk, ind_eq_one, ind_eq_zero, ind_eq_one, ind_eq_zero]
    exact ⟨fun a b => h1 _ (getD_mem_of_lt _ hk) a b, fun a b => h2 _ (getD_mem_of_lt _ hk) b a⟩
  rw [si, sj] at hsp hsp'
  unfold diffCount at hsp hsp'
  generalize hPP : ((List.range B.x.length).filter fun k => decide (ri.1.getD k 0 = 1 ∧ rj.1.getD k 0 = 0)) = P at *
  generalize hNN : ((List.range B.x.length).filter fun k => decide (rj.1.getD k 0 = 1 ∧ ri.1.getD k 0 = 0)) = N at *
  by_cases ha : ((List.range B.x.length).any fun k => decide (ri.1.getD k 0 ≥ 1 ∧ rj.1.getD k 0 ≥ 1)) = true
  · rw [if_pos ha] at hf ⊢
    have ha' := hany.mp ha
    split
    · rename_i hd
      rw [if_pos hd] at hf
      have hS : Splits σ B.x e e' := by
        constructor
        · intro t ht h1 h2
          obtain ⟨k, hk, rfl⟩ := mem_index ht
          exact hf.1 k ((hP k).mpr ⟨hk, h1, h2⟩)
        · intro t ht h1 h2
          obtain ⟨k, hk, rfl⟩ := mem_index ht
          exact hf.2 k ((hN k).mpr ⟨hk, h1, h2⟩)
      simp only [hP, hN, hk, true_and, ha', hS, true_or]
    · rename_i hd
      rw [if_neg hd] at hf
      split
      · rename_i hd'
        rw [if_pos hd'] at hf
        have hS : Splits σ B.x e' e := by
          constructor
          · intro t ht h1 h2
            obtain ⟨k, hk, rfl⟩ := mem_index ht
            exact hf.1 k ((hN k).mpr ⟨hk, h1, h2⟩)
          · intro t ht h1 h2
            obtain ⟨k, hk, rfl⟩ := mem_index ht
            exact hf.2 k ((hP k).mpr ⟨hk, h1, h2⟩)
        simp only [hP, hN, hk, true_and, ha', hS, or_true]
        exact or_comm
      · rename_i hd'
        constructor
        · intro hh; simp at hh
        · rintro ⟨-, hS | hS, -⟩
          · exact absurd (hsp hS).symm hd
          · exact absurd (by have := hsp' hS; omega) hd'
  · rw [if_neg ha]
    constructor
    · intro hh; simp at hh
    · rintro ⟨h1, -⟩; exact absurd (hany.mpr h1) ha

theorem rows_fold_mem (mines : List Nat) : ∀ (rows : List (List Int × Int)) {row : List Int × Int}, row ∈ rows →
    ∃ row' ∈ mines.foldl (fun rows k => rows.map fun r => (r.1, r.2 - r.1.getD k 0)) rows, row'.1 = row.1 := by
  induction mines with
  | nil => intro rows row h; exact ⟨row, h, rfl⟩
  | cons k mines ih =>
    intro rows row h
    rw [List.foldl_cons]
    obtain ⟨row', h1, h2⟩ := ih _ (List.mem_map.mpr ⟨row, h, rfl⟩)
    exact ⟨row', h1, h2⟩

theorem minusApply_surv (B : Block) (m : Marks) (mi sa : List Nat) : Surv B (minusApply B m mi sa).1 := by
  rintro e ⟨row, h1, h2⟩ -
  obtain ⟨row', h3, h4⟩ := rows_fold_mem mi B.rows h1
  refine ⟨_, List.mem_map.mpr ⟨row', h3, rfl⟩, ?_⟩
  simp only [minusApply]
  rw [h4, h2, map_foldl_eraseIdx]

/-- the pair rule on a block -/
theorem minusBlock_step {σ : Pos → Bool} {Q : Set Pos → Prop} {B : Block} (m : Marks) (h : Block01 B) (hnd : B.x.Nodup)
    (hn : Named Q B) (hQ : ∀ e, Q e → HasRow B e) (hs : SolvesB σ B) :
    BStep (PairSays σ Q B.x) B (minusBlock B m).1 := by
  obtain ⟨l, d1, d2⟩ := minusBlock_spec h m ⟨σ, hs⟩
  have hsame : ∀ {i e1 e2}, (B.rows.getD i ([], 0)).1 = B.x.map (ind e1) → (B.rows.getD i ([], 0)).1 = B.x.map (ind e2) →
      ∀ p ∈ B.x, ¬ (p ∈ e1 ∧ p ∉ e2 ∨ p ∈ e2 ∧ p ∉ e1) := by
    intro i e1 e2 b2 c2 p hp hx
    rw [b2] at c2
    have h1 : ∀ t ∈ B.x, ind e1 t = ind e2 t := List.map_inj_left.mp c2
    have h2 := h1 _ hp
    rcases hx with ⟨x1, x2⟩ | ⟨x1, x2⟩
    · rw [ind_eq_one.mpr x1] at h2
      exact x2 (ind_eq_one.mp h2.symm)
    · rw [ind_eq_one.mpr x1] at h2
      exact x2 (ind_eq_one.mp h2)
  have hnone : B.rows.length ≤ 1 → ∀ p ∈ B.x, ¬ PairSays σ Q B.x p := by
    rintro hlen p hp ⟨e, e', h1, h2, -, -, h3⟩
    obtain ⟨row1, b1, b2⟩ := hQ e h1
    obtain ⟨row2, c1, c2⟩ := hQ e' h2
    obtain ⟨i, hi, rfl⟩ := row_index b1
    obtain ⟨j, hj, rfl⟩ := row_index c1
    obtain rfl : i = j := by omega
    exact hsame b2 c2 p hp h3
  by_cases hlen : B.rows.length ≤ 1
  · have e : minusBlock B m = (B, m) := by unfold minusBlock; rw [if_pos hlen]
    rw [e] at d1 ⊢
    exact ⟨⟨l, d1⟩, .refl B, .refl B, fun p h1 h2 => absurd h1 h2, fun p hp => hnone hlen p hp⟩
  · have e : minusBlock B m = minusApply B m (sortDedup B.x.length (minusPairs B).1) (sortDedup B.x.length (minusPairs B).2) := by
      unfold minusBlock; rw [if_neg hlen]
    have r1 := reports_pushes (fun k => B.x.getD k (0, 0)) false (sortDedup B.x.length (minusPairs B).2) m
    have r2 := reports_pushes (fun k => B.x.getD k (0, 0)) true (sortDedup B.x.length (minusPairs B).1)
      ((sortDedup B.x.length (minusPairs B).2).foldl (fun m k => m.push (B.x.getD k (0, 0)) false) m)
    have hrep := r1.trans r2
    have hl : ∀ p, p ∈ l.map (·.1) ↔ ∃ k, k < B.x.length ∧ B.x.getD k (0, 0) = p ∧ (k ∈ (minusPairs B).1 ∨ k ∈ (minusPairs B).2) := by
      intro p
      constructor
      · intro hp
        obtain ⟨q, hq, rfl⟩ := List.mem_map.mp hp
        have := reports_unique d2 (by rw [e]; exact hrep) q hq
        simp only [List.mem_append, List.mem_map, sortDedup, List.mem_filter, decide_eq_true_eq, List.mem_range] at this
        rcases this with ⟨k, ⟨h1, hk⟩, rfl⟩ | ⟨k, ⟨h1, hk⟩, rfl⟩
        · exact ⟨k, h1, rfl, .inr hk⟩
        · exact ⟨k, h1, rfl, .inl hk⟩
      · rintro ⟨k, hk, rfl, hor⟩
        rw [e] at d2
        rcases hor with h1 | h1
        · exact List.mem_map.mpr ⟨_, reports_unique hrep d2 (B.x.getD k (0, 0), true) (by
            simp only [List.mem_append, List.mem_map, sortDedup, List.mem_filter, decide_eq_true_eq, List.mem_range]
            exact .inr ⟨k, ⟨hk, h1⟩, rfl⟩), rfl⟩
        · exact List.mem_map.mpr ⟨_, reports_unique hrep d2 (B.x.getD k (0, 0), false) (by
            simp only [List.mem_append, List.mem_map, sortDedup, List.mem_filter, decide_eq_true_eq, List.mem_range]
            exact .inl ⟨k, ⟨hk, h1⟩, rfl⟩), rfl⟩
    refine ⟨⟨l, d1⟩, by rw [e]; exact minusApply_inh B m _ _, by rw [e]; exact minusApply_surv B m _ _, fun p hp hp' => ?_, fun p hp => ?_⟩
    · rcases List.mem_append.mp (d1.perm.mem_iff.mp hp) with h1 | h1
      · obtain ⟨k, hk, rfl, hor⟩ := (hl p).mp h1
        obtain ⟨i, j, hji, hi, hor⟩ := (minusPairs_mem k).mp hor
        obtain ⟨e1, q1, a1⟩ := hn _ (getD_rows_mem hi)
        obtain ⟨e2, q2, a2⟩ := hn _ (getD_rows_mem (show j < B.rows.length by omega))
        obtain ⟨⟨u, hu, hu1, hu2⟩, hsp, hx⟩ := (minusPair_iff h hs hi (by omega) a1 a2 hk).mp hor
        rcases hsp with hsp | hsp
        · exact ⟨e1, e2, q1, q2, ⟨u, hu, hu1, hu2⟩, hsp, hx⟩
        · exact ⟨e2, e1, q2, q1, ⟨u, hu, hu2, hu1⟩, hsp, hx.symm⟩
      · exact absurd h1 hp'
    · rintro ⟨e1, e2, q1, q2, ⟨u, hu, hu1, hu2⟩, hsp, hx⟩
      obtain ⟨k, hk, rfl⟩ := mem_index (dedB_sub d1 p hp)
      obtain ⟨row1, b1, b2⟩ := hQ e1 q1
      obtain ⟨row2, c1, c2⟩ := hQ e2 q2
      obtain ⟨i, hi, rfl⟩ := row_index b1
      obtain ⟨j, hj, rfl⟩ := row_index c1
      have hij : i ≠ j := by
        rintro rfl
        exact hsame b2 c2 _ (getD_mem_of_lt _ hk) hx
      have hmem : k ∈ (minusPairs B).1 ∨ k ∈ (minusPairs B).2 := by
        rw [minusPairs_mem]
        rcases Nat.lt_or_ge j i with hlt | hge
        · exact ⟨i, j, hlt, hi, (minusPair_iff h hs hi hj b2 c2 hk).mpr ⟨⟨u, hu, hu1, hu2⟩, .inl hsp, hx⟩⟩
        · exact ⟨j, i, by omega, hj, (minusPair_iff h hs hj hi c2 b2 hk).mpr ⟨⟨u, hu, hu2, hu1⟩, .inr hsp, hx.symm⟩⟩
      have hnd' := d1.perm.nodup_iff.mp hnd
      rw [List.nodup_append] at hnd'
      exact hnd'.2.2 _ ((hl _).mpr ⟨k, hk, rfl, hmem⟩) _ hp rfl

end Ms
