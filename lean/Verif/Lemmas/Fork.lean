import Verif.Lemmas.NoGuess
import Verif.Model.Solvable

namespace Ms
open Spec

/-- The board contains a place where two layouts cannot be told apart. -/
structure Fork (r c : Nat) (b : Board) (D : Finset Pos) (τ : Pos → Bool) : Prop where
  sub : D ⊆ grid r c
  safe : ∃ p ∈ D, layout b p = false
  flip : ∀ p ∈ D, layout b p = false → τ p = true
  same : ∀ p, p ∉ D → τ p = layout b p
  count : ∀ p ∈ grid r c, p ∉ D → layout b p = false → layoutNear r c τ p = layoutNear r c (layout b) p
  near : ∀ p ∈ D, layout b p = false → ∃ q ∈ grid r c, Near p q ∧ layout b q = true

def HasFork (r c : Nat) (b : Board) : Prop := ∃ D τ, Fork r c b D τ

theorem HasFork.noGuess {r c : Nat} {b : Board} (h : HasFork r c b) {s : Pos} (hs : layout b s = false)
    (hg : s ∈ grid r c) (h0 : ∀ q ∈ grid r c, Near s q → layout b q = false) : ¬ NoGuess r c b s := by
  obtain ⟨D, τ, h⟩ := h
  obtain ⟨p, hp, hp'⟩ := h.safe
  refine fork_noGuess hs hg ?_ ⟨p, hp, h.sub hp, hp'⟩ h.flip h.same h.count
  intro hD
  obtain ⟨q, hq, hn, hl⟩ := h.near s hD hs
  rw [h0 q hq hn] at hl
  simp at hl

/-- counting around `p`, inside and outside `D` -/
theorem layoutNear_split {r c : Nat} {D : Finset Pos} (hD : D ⊆ grid r c) (σ : Pos → Bool) (p : Pos) :
    layoutNear r c σ p = ((grid r c \ D).filter fun q => Near p q ∧ σ q = true).card +
      D.sum fun q => if Near p q ∧ σ q = true then 1 else 0 := by
  unfold layoutNear
  rw [← Finset.card_filter, ← Finset.card_union_of_disjoint]
  · rw [← Finset.filter_union, Finset.sdiff_union_of_subset hD]
  · exact Finset.disjoint_filter_filter Finset.sdiff_disjoint

theorem layoutNear_congr {r c : Nat} {D : Finset Pos} (hD : D ⊆ grid r c) {σ τ : Pos → Bool} {p : Pos}
    (ho : ∀ q, q ∉ D → τ q = σ q)
    (hi : (D.sum fun q => if Near p q ∧ τ q = true then 1 else 0) =
      D.sum fun q => if Near p q ∧ σ q = true then 1 else 0) : layoutNear r c τ p = layoutNear r c σ p := by
  rw [layoutNear_split hD, layoutNear_split hD, hi]
  congr 2
  apply Finset.filter_congr
  intro q hq
  rw [ho q (Finset.mem_sdiff.mp hq).2]

theorem mineMap_mine {b : Board} {p : Pos} : mineMap b p = -1 ↔ layout b p = true := by
  unfold mineMap layout; split <;> simp_all

theorem mineMap_safe {b : Board} {p : Pos} : mineMap b p = 0 ↔ layout b p = false := by
  unfold mineMap layout; split <;> simp_all

theorem mineMap_one {b : Board} {p q : Pos} : mineMap b p + mineMap b q = -1 ↔ layout b q = !layout b p := by
  unfold mineMap layout; split <;> split <;> simp_all

theorem tmpl_iff {b : Board} {ms : List Pos} {ones : List (Pos × Pos)} :
    tmpl (mineMap b) ms ones = true ↔ (∀ p ∈ ms, layout b p = true) ∧ ∀ q ∈ ones, layout b q.2 = !layout b q.1 := by
  unfold tmpl
  simp only [Bool.and_eq_true, List.all_eq_true, beq_iff_eq, mineMap_mine, mineMap_one]

theorem hole_iff {b : Board} {ms : List Pos} {z : Pos} :
    hole (mineMap b) ms z = true ↔ (∀ p ∈ ms, layout b p = true) ∧ layout b z = false := by
  unfold hole
  simp only [Bool.and_eq_true, List.all_eq_true, beq_iff_eq, mineMap_mine, mineMap_safe]

variable {r c : Nat} {b : Board}

theorem pair_fork {ms : List Pos} {x y : Pos} (h : tmpl (mineMap b) ms [(x, y)] = true) (hx : x ∈ grid r c)
    (hy : y ∈ grid r c) (hne : x ≠ y) (hn : Near x y)
    (hms : ∀ p ∈ grid r c, p ≠ x → p ≠ y → (Near p x ↔ Near p y) ∨ p ∈ ms) : HasFork r c b := by
  obtain ⟨h1, h2⟩ := tmpl_iff.mp h
  have h2 : layout b y = !layout b x := h2 (x, y) (by simp)
  have hsub : ({x, y} : Finset Pos) ⊆ grid r c := by
    intro p hp
    simp only [Finset.mem_insert, Finset.mem_singleton] at hp
    rcases hp with rfl | rfl <;> assumption
  refine ⟨{x, y}, fun p => if p ∈ ({x, y} : Finset Pos) then !layout b p else layout b p, hsub, ?_, ?_, ?_, ?_, ?_⟩
  · rcases Bool.eq_false_or_eq_true (layout b x) with hb | hb
    · exact ⟨y, by simp, by rw [h2, hb]; rfl⟩
    · exact ⟨x, by simp, hb⟩
  · intro p hp hl; rw [if_pos hp, hl]; rfl
  · intro p hp; rw [if_neg hp]
  · intro p hp hpD hl
    apply layoutNear_congr hsub (fun q hq => by rw [if_neg hq])
    have hpx : p ≠ x := fun e => hpD (by simp [e])
    have hpy : p ≠ y := fun e => hpD (by simp [e])
    have hiff : Near p x ↔ Near p y := by
      rcases hms p hp hpx hpy with h | h
      · exact h
      · rw [h1 p h] at hl; simp at hl
    rw [Finset.sum_pair hne, Finset.sum_pair hne, if_pos (by simp : x ∈ ({x, y} : Finset Pos)),
      if_pos (by simp : y ∈ ({x, y} : Finset Pos)), h2]
    by_cases hN : Near p y
    · have hN' := hiff.mpr hN
      rcases Bool.eq_false_or_eq_true (layout b x) with hb | hb <;> simp [hN, hN', hb]
    · have hN' : ¬ Near p x := fun h => hN (hiff.mp h)
      simp [hN, hN']
  · intro p hp hl
    simp only [Finset.mem_insert, Finset.mem_singleton] at hp
    rcases hp with rfl | rfl
    · exact ⟨y, hy, hn, by rw [h2, hl]; rfl⟩
    · refine ⟨x, hx, hn.symm, ?_⟩
      rw [h2] at hl; simpa using hl

theorem hole_fork {ms : List Pos} {z : Pos} (h : hole (mineMap b) ms z = true) (hz : z ∈ grid r c)
    (hq : ∃ q ∈ ms, q ∈ grid r c ∧ Near z q)
    (hms : ∀ p ∈ grid r c, p ≠ z → Near p z → p ∈ ms) : HasFork r c b := by
  obtain ⟨h1, h2⟩ := hole_iff.mp h
  have hsub : ({z} : Finset Pos) ⊆ grid r c := by simpa using hz
  refine ⟨{z}, fun p => if p ∈ ({z} : Finset Pos) then true else layout b p, hsub, ⟨z, by simp, h2⟩, ?_, ?_, ?_, ?_⟩
  · intro p hp _; rw [if_pos hp]
  · intro p hp; rw [if_neg hp]
  · intro p hp hpD hl
    apply layoutNear_congr hsub (fun q hq => by rw [if_neg hq])
    have hN : ¬ Near p z := fun hN => by
      rw [h1 p (hms p hp (fun e => hpD (by simp [e])) hN)] at hl; simp at hl
    simp [hN]
  · intro p hp _
    obtain ⟨q, hq1, hq2, hq3⟩ := hq
    rw [Finset.mem_singleton.mp hp]
    exact ⟨q, hq2, hq3, h1 q hq1⟩

theorem sum_four {a d e f : Pos} (g : Pos → Nat) (h1 : a ≠ d) (h2 : a ≠ e) (h3 : a ≠ f) (h4 : d ≠ e) (h5 : d ≠ f)
    (h6 : e ≠ f) : (({a, d, e, f} : Finset Pos).sum g) = g a + (g d + (g e + g f)) := by
  rw [Finset.sum_insert (by simp [h1, h2, h3]), Finset.sum_insert (by simp [h4, h5]), Finset.sum_pair h6]

/-- A `2×2` square `a d / f e` (in cyclic order) whose diagonals are equal and differ from each other. -/
theorem quad_fork {ms : List Pos} (hm : ∀ p ∈ ms, layout b p = true) {a d e f : Pos} (hl1 : layout b d = !layout b a) (hl2 : layout b e = layout b a)
    (hl3 : layout b f = !layout b a) (ha : a ∈ grid r c) (hd : d ∈ grid r c) (he : e ∈ grid r c) (hf : f ∈ grid r c)
    (h1 : a ≠ d) (h2 : a ≠ e) (h3 : a ≠ f) (h4 : d ≠ e) (h5 : d ≠ f) (h6 : e ≠ f)
    (n1 : Near a d) (n2 : Near e d)
    (hms : ∀ p ∈ grid r c, p ≠ a → p ≠ d → p ≠ e → p ≠ f →
      ((Near p a ↔ Near p d) ∧ (Near p e ↔ Near p f)) ∨ ((Near p a ↔ Near p f) ∧ (Near p d ↔ Near p e)) ∨
        p ∈ ms) (n3 : Near f a) : HasFork r c b := by
  have hsub : ({a, d, e, f} : Finset Pos) ⊆ grid r c := by
    intro p hp
    simp only [Finset.mem_insert, Finset.mem_singleton] at hp
    rcases hp with rfl | rfl | rfl | rfl <;> assumption
  refine ⟨{a, d, e, f}, fun p => if p ∈ ({a, d, e, f} : Finset Pos) then !layout b p else layout b p, hsub,
    ?_, ?_, ?_, ?_, ?_⟩
  · rcases Bool.eq_false_or_eq_true (layout b a) with hb | hb
    · exact ⟨d, by simp, by rw [hl1, hb]; rfl⟩
    · exact ⟨a, by simp, hb⟩
  · intro p hp hl; rw [if_pos hp, hl]; rfl
  · intro p hp; rw [if_neg hp]
  · intro p hp hpD hl
    apply layoutNear_congr hsub (fun q hq => by rw [if_neg hq])
    simp only [Finset.mem_insert, Finset.mem_singleton, not_or] at hpD
    rw [sum_four _ h1 h2 h3 h4 h5 h6, sum_four _ h1 h2 h3 h4 h5 h6,
      if_pos (by simp : a ∈ ({a, d, e, f} : Finset Pos)), if_pos (by simp : d ∈ ({a, d, e, f} : Finset Pos)),
      if_pos (by simp : e ∈ ({a, d, e, f} : Finset Pos)), if_pos (by simp : f ∈ ({a, d, e, f} : Finset Pos)),
      hl1, hl2, hl3]
    rcases hms p hp hpD.1 hpD.2.1 hpD.2.2.1 hpD.2.2.2 with ⟨e1, e2⟩ | ⟨e1, e2⟩ | h
    · simp only [e1, e2]
      rcases Bool.eq_false_or_eq_true (layout b a) with hb | hb <;> simp [hb] <;> split <;> split <;> rfl
    · simp only [e1, e2]
      rcases Bool.eq_false_or_eq_true (layout b a) with hb | hb <;> simp [hb] <;> split <;> split <;> rfl
    · rw [hm p h] at hl; simp at hl
  · intro p hp hl
    simp only [Finset.mem_insert, Finset.mem_singleton] at hp
    rcases hp with rfl | rfl | rfl | rfl
    · exact ⟨d, hd, n1, by rw [hl1, hl]; rfl⟩
    · exact ⟨a, ha, n1.symm, by rw [hl1] at hl; simpa using hl⟩
    · exact ⟨d, hd, n2, by rw [hl1]; rw [hl2] at hl; rw [hl]; rfl⟩
    · exact ⟨a, ha, n3, by rw [hl3] at hl; simpa using hl⟩

/-- A corner `a` whose two edge neighbours `d`, `f` are equal and differ from the diagonal neighbour `e`. -/
theorem corner_fork {ms : List Pos} (hm : ∀ p ∈ ms, layout b p = true) {a d e f : Pos} (hl1 : layout b e = !layout b d) (hl2 : layout b f = layout b d)
    (ha : a ∈ grid r c) (hd : d ∈ grid r c) (he : e ∈ grid r c) (hf : f ∈ grid r c)
    (h1 : a ≠ d) (h2 : a ≠ e) (h3 : a ≠ f) (h4 : d ≠ e) (h5 : d ≠ f) (h6 : e ≠ f)
    (n1 : Near a d) (n2 : Near a e) (n3 : Near d e) (n4 : Near f e)
    (hms : ∀ p ∈ grid r c, p ≠ a → p ≠ d → p ≠ e → p ≠ f → ¬ Near p a ∧
      (((Near p d ↔ Near p e) ∧ ¬ Near p f) ∨ ((Near p f ↔ Near p e) ∧ ¬ Near p d) ∨ p ∈ ms)) :
    HasFork r c b := by
  have hsub : ({a, d, e, f} : Finset Pos) ⊆ grid r c := by
    intro p hp
    simp only [Finset.mem_insert, Finset.mem_singleton] at hp
    rcases hp with rfl | rfl | rfl | rfl <;> assumption
  refine ⟨{a, d, e, f}, fun p => if p ∈ ({a, d, e, f} : Finset Pos) then (if p = a then true else !layout b p)
    else layout b p, hsub, ?_, ?_, ?_, ?_, ?_⟩
  · rcases Bool.eq_false_or_eq_true (layout b d) with hb | hb
    · exact ⟨e, by simp, by rw [hl1, hb]; rfl⟩
    · exact ⟨d, by simp, hb⟩
  · intro p hp hl; rw [if_pos hp, hl]; simp
  · intro p hp; rw [if_neg hp]
  · intro p hp hpD hl
    apply layoutNear_congr hsub (fun q hq => by rw [if_neg hq])
    simp only [Finset.mem_insert, Finset.mem_singleton, not_or] at hpD
    obtain ⟨hna, hms⟩ := hms p hp hpD.1 hpD.2.1 hpD.2.2.1 hpD.2.2.2
    rw [sum_four _ h1 h2 h3 h4 h5 h6, sum_four _ h1 h2 h3 h4 h5 h6,
      if_pos (by simp : a ∈ ({a, d, e, f} : Finset Pos)), if_pos (by simp : d ∈ ({a, d, e, f} : Finset Pos)),
      if_pos (by simp : e ∈ ({a, d, e, f} : Finset Pos)), if_pos (by simp : f ∈ ({a, d, e, f} : Finset Pos)),
      if_neg h1.symm, if_neg h2.symm, if_neg h3.symm, hl1, hl2]
    rcases hms with ⟨e1, e2⟩ | ⟨e1, e2⟩ | h
    · simp only [e1, e2, hna]
      rcases Bool.eq_false_or_eq_true (layout b d) with hb | hb <;> simp [hb]
    · simp only [e1, e2, hna]
      rcases Bool.eq_false_or_eq_true (layout b d) with hb | hb <;> simp [hb]
    · rw [hm p h] at hl; simp at hl
  · intro p hp hl
    simp only [Finset.mem_insert, Finset.mem_singleton] at hp
    rcases hp with rfl | rfl | rfl | rfl
    · rcases Bool.eq_false_or_eq_true (layout b d) with hb | hb
      · exact ⟨d, hd, n1, hb⟩
      · exact ⟨e, he, n2, by rw [hl1, hb]; rfl⟩
    · exact ⟨e, he, n3, by rw [hl1, hl]; rfl⟩
    · exact ⟨d, hd, n3.symm, by rw [hl1] at hl; simpa using hl⟩
    · exact ⟨e, he, n4, by rw [hl1]; rw [hl2] at hl; rw [hl]; rfl⟩

/-! ## the templates -/

/-- closes the geometric side conditions of the templates -/
macro "geo" : tactic => `(tactic| (simp only [mem_grid, Near, List.mem_cons, List.not_mem_nil, or_false, Prod.mk.injEq,
  ne_eq, Prod.forall, exists_eq_or_imp, exists_eq_left] at *; omega))

theorem edgeLR_fork (hr : 3 ≤ r) (hc : 3 ≤ c) {i : Nat} (hi : i < r - 2) (h : edgeLR (mineMap b) r c i = true) :
    HasFork r c b := by
  unfold edgeLR at h
  simp only [Bool.or_eq_true, Bool.and_eq_true, decide_eq_true_eq] at h
  rcases h with (⟨hi', h | h⟩ | (((h | h) | h) | h)) | ⟨hi', h | h⟩
  · refine pair_fork h ?_ ?_ ?_ ?_ ?_ <;> clear h
    all_goals geo
  · refine pair_fork h ?_ ?_ ?_ ?_ ?_ <;> clear h
    all_goals geo
  · refine pair_fork h ?_ ?_ ?_ ?_ ?_ <;> clear h
    all_goals geo
  · refine pair_fork h ?_ ?_ ?_ ?_ ?_ <;> clear h
    all_goals geo
  · refine hole_fork h ?_ ?_ ?_ <;> clear h
    all_goals geo
  · refine hole_fork h ?_ ?_ ?_ <;> clear h
    all_goals geo
  · obtain ⟨h1, h2⟩ := tmpl_iff.mp h
    have e1 := h2 ((i + 1, 0), (i + 1, 1)) (by simp)
    have e2 := h2 ((i + 1, 1), (i + 2, 1)) (by simp)
    have e3 := h2 ((i + 2, 1), (i + 2, 0)) (by simp)
    simp only at e1 e2 e3
    refine quad_fork h1 (a := (i + 1, 0)) (d := (i + 1, 1)) (e := (i + 2, 1)) (f := (i + 2, 0)) e1
      (by rw [e2, e1]; simp) (by rw [e3, e2, e1]; simp) ?_ ?_ ?_ ?_ ?_ ?_ ?_ ?_ ?_ ?_ ?_ ?_ ?_ ?_ <;> clear h h1 h2 e1 e2 e3
    all_goals geo
  · obtain ⟨h1, h2⟩ := tmpl_iff.mp h
    have e1 := h2 ((i + 1, c - 1), (i + 1, c - 2)) (by simp)
    have e2 := h2 ((i + 1, c - 2), (i + 2, c - 2)) (by simp)
    have e3 := h2 ((i + 2, c - 2), (i + 2, c - 1)) (by simp)
    simp only at e1 e2 e3
    refine quad_fork h1 (a := (i + 1, c - 1)) (d := (i + 1, c - 2)) (e := (i + 2, c - 2)) (f := (i + 2, c - 1)) e1
      (by rw [e2, e1]; simp) (by rw [e3, e2, e1]; simp) ?_ ?_ ?_ ?_ ?_ ?_ ?_ ?_ ?_ ?_ ?_ ?_ ?_ ?_ <;> clear h h1 h2 e1 e2 e3
    all_goals geo

theorem edgeTB_fork (hr : 3 ≤ r) (hc : 3 ≤ c) {i : Nat} (hi : i < c - 2) (h : edgeTB (mineMap b) r c i = true) :
    HasFork r c b := by
  unfold edgeTB at h
  simp only [Bool.or_eq_true, Bool.and_eq_true, decide_eq_true_eq] at h
  rcases h with (⟨hi', h | h⟩ | (((h | h) | h) | h)) | ⟨hi', h | h⟩
  · refine pair_fork h ?_ ?_ ?_ ?_ ?_ <;> clear h
    all_goals geo
  · refine pair_fork h ?_ ?_ ?_ ?_ ?_ <;> clear h
    all_goals geo
  · refine pair_fork h ?_ ?_ ?_ ?_ ?_ <;> clear h
    all_goals geo
  · refine pair_fork h ?_ ?_ ?_ ?_ ?_ <;> clear h
    all_goals geo
  · refine hole_fork h ?_ ?_ ?_ <;> clear h
    all_goals geo
  · refine hole_fork h ?_ ?_ ?_ <;> clear h
    all_goals geo
  · obtain ⟨h1, h2⟩ := tmpl_iff.mp h
    have e1 := h2 ((0, i + 1), (1, i + 1)) (by simp)
    have e2 := h2 ((1, i + 1), (1, i + 2)) (by simp)
    have e3 := h2 ((1, i + 2), (0, i + 2)) (by simp)
    simp only at e1 e2 e3
    refine quad_fork h1 (a := (0, i + 1)) (d := (1, i + 1)) (e := (1, i + 2)) (f := (0, i + 2)) e1
      (by rw [e2, e1]; simp) (by rw [e3, e2, e1]; simp) ?_ ?_ ?_ ?_ ?_ ?_ ?_ ?_ ?_ ?_ ?_ ?_ ?_ ?_ <;> clear h h1 h2 e1 e2 e3
    all_goals geo
  · obtain ⟨h1, h2⟩ := tmpl_iff.mp h
    have e1 := h2 ((r - 1, i + 1), (r - 2, i + 1)) (by simp)
    have e2 := h2 ((r - 2, i + 1), (r - 2, i + 2)) (by simp)
    have e3 := h2 ((r - 2, i + 2), (r - 1, i + 2)) (by simp)
    simp only at e1 e2 e3
    refine quad_fork h1 (a := (r - 1, i + 1)) (d := (r - 2, i + 1)) (e := (r - 2, i + 2)) (f := (r - 1, i + 2)) e1
      (by rw [e2, e1]; simp) (by rw [e3, e2, e1]; simp) ?_ ?_ ?_ ?_ ?_ ?_ ?_ ?_ ?_ ?_ ?_ ?_ ?_ ?_ <;> clear h h1 h2 e1 e2 e3
    all_goals geo

theorem inner_fork (hr : 3 ≤ r) (hc : 3 ≤ c) {i j : Nat} (hi : i < r - 2) (hj : j < c - 2)
    (h : inner (mineMap b) r c i j = true) : HasFork r c b := by
  unfold inner at h
  simp only [Bool.or_eq_true, Bool.and_eq_true, decide_eq_true_eq] at h
  rcases h with ((⟨hi', h⟩ | ⟨hi', h⟩) | h) | ⟨hi', h⟩
  · refine pair_fork h ?_ ?_ ?_ ?_ ?_ <;> clear h
    all_goals geo
  · refine pair_fork h ?_ ?_ ?_ ?_ ?_ <;> clear h
    all_goals geo
  · refine hole_fork h ?_ ?_ ?_ <;> clear h
    all_goals geo
  · obtain ⟨h1, h2⟩ := tmpl_iff.mp h
    have e1 := h2 ((i + 1, j + 1), (i + 2, j + 1)) (by simp)
    have e2 := h2 ((i + 1, j + 1), (i + 1, j + 2)) (by simp)
    have e3 := h2 ((i + 2, j + 1), (i + 2, j + 2)) (by simp)
    simp only at e1 e2 e3
    refine quad_fork h1 (a := (i + 1, j + 1)) (d := (i + 2, j + 1)) (e := (i + 2, j + 2)) (f := (i + 1, j + 2)) e1
      (by rw [e3, e1]; simp) e2 ?_ ?_ ?_ ?_ ?_ ?_ ?_ ?_ ?_ ?_ ?_ ?_ ?_ ?_ <;> clear h h1 h2 e1 e2 e3
    all_goals geo

theorem corners_fork (hr : 3 ≤ r) (hc : 3 ≤ c) (h : corners (mineMap b) r c = true) : HasFork r c b := by
  unfold corners at h
  simp only [Bool.or_eq_true] at h
  rcases h with ((((((((((((((h | h) | h) | h) | h) | h) | h) | h) | h) | h) | h) | h) | h) | h) | h) | h
  iterate 8
    · refine pair_fork h ?_ ?_ ?_ ?_ ?_ <;> clear h
      all_goals geo
  iterate 4
    · refine hole_fork h ?_ ?_ ?_ <;> clear h
      all_goals geo
  · obtain ⟨h1, h2⟩ := tmpl_iff.mp h
    have e1 := h2 ((0, 1), (1, 1)) (by simp)
    have e2 := h2 ((1, 0), (1, 1)) (by simp)
    simp only at e1 e2
    refine corner_fork h1 (a := (0, 0)) (d := (0, 1)) (e := (1, 1)) (f := (1, 0)) e1 (by
      rw [e1] at e2; simpa using e2.symm) ?_ ?_ ?_ ?_ ?_ ?_ ?_ ?_ ?_ ?_ ?_ ?_ ?_ ?_ ?_ <;> clear h h1 h2 e1 e2
    all_goals geo
  · obtain ⟨h1, h2⟩ := tmpl_iff.mp h
    have e1 := h2 ((r - 1, 1), (r - 2, 1)) (by simp)
    have e2 := h2 ((r - 2, 0), (r - 2, 1)) (by simp)
    simp only at e1 e2
    refine corner_fork h1 (a := (r - 1, 0)) (d := (r - 1, 1)) (e := (r - 2, 1)) (f := (r - 2, 0)) e1 (by
      rw [e1] at e2; simpa using e2.symm) ?_ ?_ ?_ ?_ ?_ ?_ ?_ ?_ ?_ ?_ ?_ ?_ ?_ ?_ ?_ <;> clear h h1 h2 e1 e2
    all_goals geo
  · obtain ⟨h1, h2⟩ := tmpl_iff.mp h
    have e1 := h2 ((r - 1, c - 2), (r - 2, c - 2)) (by simp)
    have e2 := h2 ((r - 2, c - 1), (r - 2, c - 2)) (by simp)
    simp only at e1 e2
    refine corner_fork h1 (a := (r - 1, c - 1)) (d := (r - 1, c - 2)) (e := (r - 2, c - 2)) (f := (r - 2, c - 1)) e1 (by
      rw [e1] at e2; simpa using e2.symm) ?_ ?_ ?_ ?_ ?_ ?_ ?_ ?_ ?_ ?_ ?_ ?_ ?_ ?_ ?_ <;> clear h h1 h2 e1 e2
    all_goals geo
  · obtain ⟨h1, h2⟩ := tmpl_iff.mp h
    have e1 := h2 ((0, c - 2), (1, c - 2)) (by simp)
    have e2 := h2 ((1, c - 1), (1, c - 2)) (by simp)
    simp only at e1 e2
    refine corner_fork h1 (a := (0, c - 1)) (d := (0, c - 2)) (e := (1, c - 2)) (f := (1, c - 1)) e1 (by
      rw [e1] at e2; simpa using e2.symm) ?_ ?_ ?_ ?_ ?_ ?_ ?_ ?_ ?_ ?_ ?_ ?_ ?_ ?_ ?_ <;> clear h h1 h2 e1 e2
    all_goals geo

theorem unsolvable_fork (h : unsolvableStructure b = some true) : HasFork b.row b.col b := by
  unfold unsolvableStructure at h
  simp only at h
  split at h
  · simp at h
  · rename_i hd
    have hr : 3 ≤ b.row := by omega
    have hc : 3 ≤ b.col := by omega
    simp only [Option.some.injEq, Bool.or_eq_true, List.any_eq_true, List.mem_range] at h
    rcases h with ((⟨i, hi, h⟩ | ⟨j, hj, h⟩) | h) | ⟨i, hi, j, hj, h⟩
    · exact edgeLR_fork hr hc hi h
    · exact edgeTB_fork hr hc hj h
    · exact corners_fork hr hc h
    · exact inner_fork hr hc hi hj h

end Ms
