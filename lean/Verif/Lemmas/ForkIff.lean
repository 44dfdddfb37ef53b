import Verif.Lemmas.Fork

namespace Ms
open Spec

variable {r c : Nat} {b : Board}

/-- The board has one of the structures. -/
def Dead (r c : Nat) (b : Board) : Prop :=
  (∃ z, DeadHole r c b z) ∨ (∃ x y, DeadPair r c b x y) ∨ ∃ i j, DeadSquare r c b i j

theorem pair_dead {ms : List Pos} {x y : Pos} (h : tmpl (mineMap b) ms [(x, y)] = true) (hx : x ∈ grid r c)
    (hy : y ∈ grid r c) (ho : Orth x y)
    (hms : ∀ p ∈ grid r c, p ≠ x → p ≠ y → (Near p x ↔ Near p y) ∨ p ∈ ms) : Dead r c b := by
  obtain ⟨h1, h2⟩ := tmpl_iff.mp h
  refine .inr (.inl ⟨x, y, hx, hy, ho, h2 (x, y) (by simp), fun q hq h3 h4 h5 => ?_⟩)
  exact h1 q ((hms q hq h3 h4).resolve_left h5)

theorem hole_dead {ms : List Pos} {z : Pos} (h : hole (mineMap b) ms z = true) (hz : z ∈ grid r c)
    (hms : ∀ p ∈ grid r c, p ≠ z → Near p z → p ∈ ms) : Dead r c b := by
  obtain ⟨h1, h2⟩ := hole_iff.mp h
  exact .inl ⟨z, hz, h2, fun q hq ha => h1 q (hms q hq ha.2.symm ha.1.symm)⟩

theorem square_dead {ms : List Pos} {ones : List (Pos × Pos)} {i j : Nat} (hi : i + 1 < r) (hj : j + 1 < c)
    (h1 : ∀ p ∈ ms, layout b p = true)
    (halt : ∀ x y, InSquare i j x → InSquare i j y → ¬ IsCorner r c x → ¬ IsCorner r c y → Orth x y →
      layout b y = !layout b x)
    (hms : ∀ q ∈ grid r c, (q.1 + 1 = i ∨ q.1 = i + 2) → (q.2 + 1 = j ∨ q.2 = j + 2) → q ∈ ms) : Dead r c b :=
  .inr (.inr ⟨i, j, hi, hj, halt, fun q hq h2 h3 => h1 q (hms q hq h2 h3)⟩)

/-- alternation in a square from three of its four sides -/
theorem alternate {i j : Nat} (h1 : layout b (i, j + 1) = !layout b (i, j))
    (h2 : layout b (i + 1, j + 1) = layout b (i, j)) (h3 : layout b (i + 1, j) = !layout b (i, j)) :
    ∀ x y, InSquare i j x → InSquare i j y → ¬ IsCorner r c x → ¬ IsCorner r c y → Orth x y →
      layout b y = !layout b x := by
  rintro ⟨x1, x2⟩ ⟨y1, y2⟩ ⟨hx1, hx2⟩ ⟨hy1, hy2⟩ - - ho
  unfold Orth at ho
  simp only at hx1 hx2 hy1 hy2 ho
  rcases hx1 with rfl | rfl <;> rcases hx2 with rfl | rfl <;> rcases hy1 with rfl | rfl <;> rcases hy2 with rfl | rfl <;>
    first
    | (exfalso; omega)
    | simp [h1, h2, h3]

/-- closes the geometric side conditions -/
macro "geo2" : tactic => `(tactic| first
  | (unfold Orth; dsimp only; omega)
  | (unfold IsCorner; dsimp only; omega)
  | (unfold InSquare; dsimp only; omega)
  | (simp only [mem_grid, Near, List.mem_cons, List.not_mem_nil, or_false, Prod.mk.injEq, ne_eq, Prod.forall] at *;
     omega))

theorem edgeLR_dead (hr : 3 ≤ r) (hc : 3 ≤ c) {i : Nat} (hi : i < r - 2) (h : edgeLR (mineMap b) r c i = true) :
    Dead r c b := by
  unfold edgeLR at h
  simp only [Bool.or_eq_true, Bool.and_eq_true, decide_eq_true_eq] at h
  rcases h with (⟨hi', h | h⟩ | (((h | h) | h) | h)) | ⟨hi', h | h⟩
  iterate 4
    · refine pair_dead h ?_ ?_ ?_ ?_ <;> clear h
      all_goals geo2
  iterate 2
    · refine hole_dead h ?_ ?_ <;> clear h
      all_goals geo2
  · obtain ⟨h1, h2⟩ := tmpl_iff.mp h
    have e1 := h2 ((i + 1, 0), (i + 1, 1)) (by simp)
    have e2 := h2 ((i + 1, 1), (i + 2, 1)) (by simp)
    have e3 := h2 ((i + 2, 1), (i + 2, 0)) (by simp)
    simp only at e1 e2 e3
    refine square_dead (ones := []) (i := i + 1) (j := 0) (by omega) (by omega) h1
      (alternate e1 (by rw [e2, e1]; simp) (by rw [e3, e2, e1]; simp)) ?_
    clear h h1 h2 e1 e2 e3
    geo2
  · obtain ⟨h1, h2⟩ := tmpl_iff.mp h
    have e1 := h2 ((i + 1, c - 1), (i + 1, c - 2)) (by simp)
    have e2 := h2 ((i + 1, c - 2), (i + 2, c - 2)) (by simp)
    have e3 := h2 ((i + 2, c - 2), (i + 2, c - 1)) (by simp)
    simp only at e1 e2 e3
    have hcc : c - 2 + 1 = c - 1 := by omega
    refine square_dead (ones := []) (i := i + 1) (j := c - 2) (by omega) (by omega) h1
      (alternate (by rw [hcc, e1]; simp) (by rw [hcc, e3, e2]; simp) (by rw [e2])) ?_
    clear h h1 h2 e1 e2 e3
    geo2

theorem edgeTB_dead (hr : 3 ≤ r) (hc : 3 ≤ c) {i : Nat} (hi : i < c - 2) (h : edgeTB (mineMap b) r c i = true) :
    Dead r c b := by
  unfold edgeTB at h
  simp only [Bool.or_eq_true, Bool.and_eq_true, decide_eq_true_eq] at h
  rcases h with (⟨hi', h | h⟩ | (((h | h) | h) | h)) | ⟨hi', h | h⟩
  iterate 4
    · refine pair_dead h ?_ ?_ ?_ ?_ <;> clear h
      all_goals geo2
  iterate 2
    · refine hole_dead h ?_ ?_ <;> clear h
      all_goals geo2
  · obtain ⟨h1, h2⟩ := tmpl_iff.mp h
    have e1 := h2 ((0, i + 1), (1, i + 1)) (by simp)
    have e2 := h2 ((1, i + 1), (1, i + 2)) (by simp)
    have e3 := h2 ((1, i + 2), (0, i + 2)) (by simp)
    simp only at e1 e2 e3
    refine square_dead (ones := []) (i := 0) (j := i + 1) (by omega) (by omega) h1
      (alternate (by rw [e3, e2, e1]; simp) (by rw [e2, e1]; simp) e1) ?_
    clear h h1 h2 e1 e2 e3
    geo2
  · obtain ⟨h1, h2⟩ := tmpl_iff.mp h
    have e1 := h2 ((r - 1, i + 1), (r - 2, i + 1)) (by simp)
    have e2 := h2 ((r - 2, i + 1), (r - 2, i + 2)) (by simp)
    have e3 := h2 ((r - 2, i + 2), (r - 1, i + 2)) (by simp)
    simp only at e1 e2 e3
    have hcc : r - 2 + 1 = r - 1 := by omega
    refine square_dead (ones := []) (i := r - 2) (j := i + 1) (by omega) (by omega) h1
      (alternate e2 (by rw [hcc, e3, e2]; simp) (by rw [hcc, e1]; simp)) ?_
    clear h h1 h2 e1 e2 e3
    geo2

theorem inner_dead (hr : 3 ≤ r) (hc : 3 ≤ c) {i j : Nat} (hi : i < r - 2) (hj : j < c - 2)
    (h : inner (mineMap b) r c i j = true) : Dead r c b := by
  unfold inner at h
  simp only [Bool.or_eq_true, Bool.and_eq_true, decide_eq_true_eq] at h
  rcases h with ((⟨hi', h⟩ | ⟨hi', h⟩) | h) | ⟨hi', h⟩
  · refine pair_dead h ?_ ?_ ?_ ?_ <;> clear h
    all_goals geo2
  · refine pair_dead h ?_ ?_ ?_ ?_ <;> clear h
    all_goals geo2
  · refine hole_dead h ?_ ?_ <;> clear h
    all_goals geo2
  · obtain ⟨h1, h2⟩ := tmpl_iff.mp h
    have e1 := h2 ((i + 1, j + 1), (i + 2, j + 1)) (by simp)
    have e2 := h2 ((i + 1, j + 1), (i + 1, j + 2)) (by simp)
    have e3 := h2 ((i + 2, j + 1), (i + 2, j + 2)) (by simp)
    simp only at e1 e2 e3
    refine square_dead (ones := []) (i := i + 1) (j := j + 1) (by omega) (by omega) h1
      (alternate e2 (by rw [e3, e1]; simp) e1) ?_
    clear h h1 h2 e1 e2 e3
    geo2

/-- alternation in a square one of whose cells is a corner of the board -/
theorem corner_alternate {i j a1 a2 : Nat} (ha : IsCorner r c (a1, a2)) (hin : InSquare i j (a1, a2))
    (h1 : layout b (a1, 2 * j + 1 - a2) = !layout b (2 * i + 1 - a1, 2 * j + 1 - a2))
    (h2 : layout b (2 * i + 1 - a1, a2) = !layout b (2 * i + 1 - a1, 2 * j + 1 - a2)) :
    ∀ x y, InSquare i j x → InSquare i j y → ¬ IsCorner r c x → ¬ IsCorner r c y → Orth x y →
      layout b y = !layout b x := by
  obtain ⟨g1, g2⟩ := hin
  simp only at g1 g2
  rintro ⟨x1, x2⟩ ⟨y1, y2⟩ ⟨hx1, hx2⟩ ⟨hy1, hy2⟩ hcx hcy ho
  unfold Orth at ho
  simp only at hx1 hx2 hy1 hy2 ho
  have e1 : 2 * i + 1 - i = i + 1 := by omega
  have e2 : 2 * j + 1 - j = j + 1 := by omega
  have e3 : 2 * i + 1 - (i + 1) = i := by omega
  have e4 : 2 * j + 1 - (j + 1) = j := by omega
  rcases g1 with rfl | rfl <;> rcases g2 with rfl | rfl <;> simp only [e1, e2, e3, e4] at h1 h2 <;>
    rcases hx1 with rfl | rfl <;> rcases hx2 with rfl | rfl <;> rcases hy1 with rfl | rfl <;>
    rcases hy2 with rfl | rfl <;>
    first
    | (exfalso; omega)
    | exact absurd ha hcx
    | exact absurd ha hcy
    | simp [h1, h2]

theorem corners_dead (hr : 3 ≤ r) (hc : 3 ≤ c) (h : corners (mineMap b) r c = true) : Dead r c b := by
  unfold corners at h
  simp only [Bool.or_eq_true] at h
  have r2 : 2 * (r - 2) + 1 - (r - 1) = r - 2 := by omega
  have c2 : 2 * (c - 2) + 1 - (c - 1) = c - 2 := by omega
  rcases h with ((((((((((((((h | h) | h) | h) | h) | h) | h) | h) | h) | h) | h) | h) | h) | h) | h) | h
  iterate 8
    · refine pair_dead h ?_ ?_ ?_ ?_ <;> clear h
      all_goals geo2
  iterate 4
    · refine hole_dead h ?_ ?_ <;> clear h
      all_goals geo2
  · obtain ⟨h1, h2⟩ := tmpl_iff.mp h
    have e1 := h2 ((0, 1), (1, 1)) (by simp)
    have e2 := h2 ((1, 0), (1, 1)) (by simp)
    simp only at e1 e2
    refine square_dead (ones := []) (i := 0) (j := 0) (by omega) (by omega) h1
      (corner_alternate (a1 := 0) (a2 := 0) ?_ ?_ (by simp [e1]) (by simp [e2])) ?_ <;> clear h h1 h2 e1 e2
    all_goals geo2
  · obtain ⟨h1, h2⟩ := tmpl_iff.mp h
    have e1 := h2 ((r - 1, 1), (r - 2, 1)) (by simp)
    have e2 := h2 ((r - 2, 0), (r - 2, 1)) (by simp)
    simp only at e1 e2
    refine square_dead (ones := []) (i := r - 2) (j := 0) (by omega) (by omega) h1
      (corner_alternate (a1 := r - 1) (a2 := 0) ?_ ?_ (by simp [r2, e1]) (by simp [r2, e2])) ?_ <;> clear h h1 h2 e1 e2
    all_goals geo2
  · obtain ⟨h1, h2⟩ := tmpl_iff.mp h
    have e1 := h2 ((r - 1, c - 2), (r - 2, c - 2)) (by simp)
    have e2 := h2 ((r - 2, c - 1), (r - 2, c - 2)) (by simp)
    simp only at e1 e2
    refine square_dead (ones := []) (i := r - 2) (j := c - 2) (by omega) (by omega) h1
      (corner_alternate (a1 := r - 1) (a2 := c - 1) ?_ ?_ (by simp [r2, c2, e1]) (by simp [r2, c2, e2])) ?_ <;>
      clear h h1 h2 e1 e2
    all_goals geo2
  · obtain ⟨h1, h2⟩ := tmpl_iff.mp h
    have e1 := h2 ((0, c - 2), (1, c - 2)) (by simp)
    have e2 := h2 ((1, c - 1), (1, c - 2)) (by simp)
    simp only at e1 e2
    refine square_dead (ones := []) (i := 0) (j := c - 2) (by omega) (by omega) h1
      (corner_alternate (a1 := 0) (a2 := c - 1) ?_ ?_ (by simp [c2, e1]) (by simp [c2, e2])) ?_ <;>
      clear h h1 h2 e1 e2
    all_goals geo2

/-! ## the structures are found -/

/-- Some template matches. -/
def Matches (r c : Nat) (m : Pos → Int) : Prop :=
  (∃ i, i < r - 2 ∧ edgeLR m r c i = true) ∨ (∃ j, j < c - 2 ∧ edgeTB m r c j = true) ∨ corners m r c = true ∨
    ∃ i j, i < r - 2 ∧ j < c - 2 ∧ inner m r c i j = true

theorem hole_of {z : Pos} (h : DeadHole r c b z) (ms : List Pos) (hms : ∀ p ∈ ms, p ∈ grid r c ∧ Near z p ∧ z ≠ p) :
    hole (mineMap b) ms z = true :=
  hole_iff.mpr ⟨fun p hp => h.2.2 p (hms p hp).1 ⟨(hms p hp).2.1, (hms p hp).2.2⟩, h.2.1⟩

theorem pair_of {x y : Pos} (h : DeadPair r c b x y) (ms : List Pos)
    (hms : ∀ p ∈ ms, p ∈ grid r c ∧ p ≠ x ∧ p ≠ y ∧ ¬ (Near p x ↔ Near p y)) :
    tmpl (mineMap b) ms [(x, y)] = true := by
  refine tmpl_iff.mpr ⟨fun p hp => h.2.2.2.2 p (hms p hp).1 (hms p hp).2.1 (hms p hp).2.2.1 (hms p hp).2.2.2, ?_⟩
  intro q hq
  rw [List.mem_singleton.mp hq]
  exact h.2.2.2.1

theorem deadPair_symm {x y : Pos} (h : DeadPair r c b x y) : DeadPair r c b y x := by
  obtain ⟨h1, h2, h3, h4, h5⟩ := h
  refine ⟨h2, h1, ?_, by rw [h4]; simp, fun q hq a b' h => h5 q hq b' a (fun h' => h h'.symm)⟩
  unfold Orth at *
  omega

/-- membership of concrete cells -/
macro "geo3" : tactic => `(tactic| (simp only [mem_grid, Near, List.forall_mem_cons, List.not_mem_nil, false_imp_iff,
  implies_true, Prod.mk.injEq, ne_eq, and_true] at *; omega))

theorem hole_found (hr : 3 ≤ r) (hc : 3 ≤ c) {z : Pos} (h : DeadHole r c b z) : Matches r c (mineMap b) := by
  obtain ⟨i, j⟩ := z
  have hz := mem_grid.mp h.1
  simp only at hz
  rcases (by omega : i = 0 ∨ (0 < i ∧ i + 1 < r) ∨ i = r - 1) with hi | hi | hi <;>
    rcases (by omega : j = 0 ∨ (0 < j ∧ j + 1 < c) ∨ j = c - 1) with hj | hj | hj
  · subst hi; subst hj
    have h1 := hole_of h [(0, 1), (1, 1), (1, 0)] (by clear h; geo3)
    exact .inr (.inr (.inl (by simp [corners, h1])))
  · subst hi; obtain ⟨l, rfl⟩ : ∃ l, j = l + 1 := ⟨j - 1, by omega⟩
    have h1 := hole_of h [(0, l), (1, l), (1, l + 1), (1, l + 2), (0, l + 2)] (by clear h; geo3)
    exact .inr (.inl ⟨l, by omega, by simp [edgeTB, h1]⟩)
  · subst hi; subst hj
    have h1 := hole_of h [(0, c - 2), (1, c - 2), (1, c - 1)] (by clear h; geo3)
    exact .inr (.inr (.inl (by simp [corners, h1])))
  · obtain ⟨k, rfl⟩ : ∃ k, i = k + 1 := ⟨i - 1, by omega⟩; subst hj
    have h1 := hole_of h [(k, 0), (k, 1), (k + 1, 1), (k + 2, 1), (k + 2, 0)] (by clear h; geo3)
    exact .inl ⟨k, by omega, by simp [edgeLR, h1]⟩
  · obtain ⟨k, rfl⟩ : ∃ k, i = k + 1 := ⟨i - 1, by omega⟩; obtain ⟨l, rfl⟩ : ∃ l, j = l + 1 := ⟨j - 1, by omega⟩
    have h1 := hole_of h [(k, l), (k + 1, l), (k + 2, l), (k, l + 1), (k + 2, l + 1), (k, l + 2), (k + 1, l + 2), (k + 2, l + 2)] (by clear h; geo3)
    exact .inr (.inr (.inr ⟨k, l, by omega, by omega, by simp [inner, h1]⟩))
  · obtain ⟨k, rfl⟩ : ∃ k, i = k + 1 := ⟨i - 1, by omega⟩; subst hj
    have h1 := hole_of h [(k, c - 1), (k, c - 2), (k + 1, c - 2), (k + 2, c - 2), (k + 2, c - 1)] (by clear h; geo3)
    exact .inl ⟨k, by omega, by simp [edgeLR, h1]⟩
  · subst hi; subst hj
    have h1 := hole_of h [(r - 1, 1), (r - 2, 1), (r - 2, 0)] (by clear h; geo3)
    exact .inr (.inr (.inl (by simp [corners, h1])))
  · subst hi; obtain ⟨l, rfl⟩ : ∃ l, j = l + 1 := ⟨j - 1, by omega⟩
    have h1 := hole_of h [(r - 1, l), (r - 2, l), (r - 2, l + 1), (r - 2, l + 2), (r - 1, l + 2)] (by clear h; geo3)
    exact .inr (.inl ⟨l, by omega, by simp [edgeTB, h1]⟩)
  · subst hi; subst hj
    have h1 := hole_of h [(r - 1, c - 2), (r - 2, c - 2), (r - 2, c - 1)] (by clear h; geo3)
    exact .inr (.inr (.inl (by simp [corners, h1])))

theorem hpair_found (hr : 3 ≤ r) (hc : 3 ≤ c) {i j : Nat} (h : DeadPair r c b (i, j) (i, j + 1)) :
    Matches r c (mineMap b) := by
  have hx := mem_grid.mp h.1
  have hy := mem_grid.mp h.2.1
  simp only at hx hy
  rcases (by omega : i = 0 ∨ (0 < i ∧ i + 1 < r) ∨ i = r - 1) with hi | hi | hi <;>
    rcases (by omega : j = 0 ∨ (0 < j ∧ j + 2 < c) ∨ j = c - 2) with hj | hj | hj
  · subst hi; subst hj
    have h1 := pair_of h [(0, 2), (1, 2)] (by clear h; geo3)
    exact .inr (.inr (.inl (by simp [corners, h1])))
  · subst hi; obtain ⟨l, rfl⟩ : ∃ l, j = l + 1 := ⟨j - 1, by omega⟩
    have h1 := pair_of h [(0, l), (1, l), (0, l + 3), (1, l + 3)] (by clear h; geo3)
    exact .inr (.inl ⟨l, by omega, by simp [edgeTB, h1, (by omega : l < c - 3)]⟩)
  · subst hi; subst hj; rw [(by omega : c - 2 + 1 = c - 1)] at h hy
    have h1 := pair_of (deadPair_symm h) [(0, c - 3), (1, c - 3)] (by clear h; geo3)
    exact .inr (.inr (.inl (by simp [corners, h1])))
  · obtain ⟨k, rfl⟩ : ∃ k, i = k + 1 := ⟨i - 1, by omega⟩; subst hj
    have h1 := pair_of h [(k, 2), (k + 1, 2), (k + 2, 2)] (by clear h; geo3)
    exact .inl ⟨k, by omega, by simp [edgeLR, h1]⟩
  · obtain ⟨k, rfl⟩ : ∃ k, i = k + 1 := ⟨i - 1, by omega⟩; obtain ⟨l, rfl⟩ : ∃ l, j = l + 1 := ⟨j - 1, by omega⟩
    have h1 := pair_of h [(k, l), (k + 1, l), (k + 2, l), (k, l + 3), (k + 1, l + 3), (k + 2, l + 3)] (by clear h; geo3)
    exact .inr (.inr (.inr ⟨k, l, by omega, by omega, by simp [inner, h1, (by omega : l < c - 3)]⟩))
  · obtain ⟨k, rfl⟩ : ∃ k, i = k + 1 := ⟨i - 1, by omega⟩; subst hj; rw [(by omega : c - 2 + 1 = c - 1)] at h hy
    have h1 := pair_of (deadPair_symm h) [(k, c - 3), (k + 1, c - 3), (k + 2, c - 3)] (by clear h; geo3)
    exact .inl ⟨k, by omega, by simp [edgeLR, h1]⟩
  · subst hi; subst hj
    have h1 := pair_of h [(r - 1, 2), (r - 2, 2)] (by clear h; geo3)
    exact .inr (.inr (.inl (by simp [corners, h1])))
  · subst hi; obtain ⟨l, rfl⟩ : ∃ l, j = l + 1 := ⟨j - 1, by omega⟩
    have h1 := pair_of h [(r - 1, l), (r - 2, l), (r - 1, l + 3), (r - 2, l + 3)] (by clear h; geo3)
    exact .inr (.inl ⟨l, by omega, by simp [edgeTB, h1, (by omega : l < c - 3)]⟩)
  · subst hi; subst hj; rw [(by omega : c - 2 + 1 = c - 1)] at h hy
    have h1 := pair_of (deadPair_symm h) [(r - 1, c - 3), (r - 2, c - 3)] (by clear h; geo3)
    exact .inr (.inr (.inl (by simp [corners, h1])))

theorem vpair_found (hr : 3 ≤ r) (hc : 3 ≤ c) {i j : Nat} (h : DeadPair r c b (i, j) (i + 1, j)) :
    Matches r c (mineMap b) := by
  have hx := mem_grid.mp h.1
  have hy := mem_grid.mp h.2.1
  simp only at hx hy
  rcases (by omega : i = 0 ∨ (0 < i ∧ i + 2 < r) ∨ i = r - 2) with hi | hi | hi <;>
    rcases (by omega : j = 0 ∨ (0 < j ∧ j + 1 < c) ∨ j = c - 1) with hj | hj | hj
  · subst hi; subst hj
    have h1 := pair_of h [(2, 0), (2, 1)] (by clear h; geo3)
    exact .inr (.inr (.inl (by simp [corners, h1])))
  · subst hi; obtain ⟨l, rfl⟩ : ∃ l, j = l + 1 := ⟨j - 1, by omega⟩
    have h1 := pair_of h [(2, l), (2, l + 1), (2, l + 2)] (by clear h; geo3)
    exact .inr (.inl ⟨l, by omega, by simp [edgeTB, h1]⟩)
  · subst hi; subst hj
    have h1 := pair_of h [(2, c - 1), (2, c - 2)] (by clear h; geo3)
    exact .inr (.inr (.inl (by simp [corners, h1])))
  · obtain ⟨k, rfl⟩ : ∃ k, i = k + 1 := ⟨i - 1, by omega⟩; subst hj
    have h1 := pair_of h [(k, 0), (k, 1), (k + 3, 0), (k + 3, 1)] (by clear h; geo3)
    exact .inl ⟨k, by omega, by simp [edgeLR, h1, (by omega : k < r - 3)]⟩
  · obtain ⟨k, rfl⟩ : ∃ k, i = k + 1 := ⟨i - 1, by omega⟩; obtain ⟨l, rfl⟩ : ∃ l, j = l + 1 := ⟨j - 1, by omega⟩
    have h1 := pair_of h [(k, l), (k, l + 1), (k, l + 2), (k + 3, l), (k + 3, l + 1), (k + 3, l + 2)] (by clear h; geo3)
    exact .inr (.inr (.inr ⟨k, l, by omega, by omega, by simp [inner, h1, (by omega : k < r - 3)]⟩))
  · obtain ⟨k, rfl⟩ : ∃ k, i = k + 1 := ⟨i - 1, by omega⟩; subst hj
    have h1 := pair_of h [(k, c - 1), (k, c - 2), (k + 3, c - 1), (k + 3, c - 2)] (by clear h; geo3)
    exact .inl ⟨k, by omega, by simp [edgeLR, h1, (by omega : k < r - 3)]⟩
  · subst hi; subst hj; rw [(by omega : r - 2 + 1 = r - 1)] at h hy
    have h1 := pair_of (deadPair_symm h) [(r - 3, 0), (r - 3, 1)] (by clear h; geo3)
    exact .inr (.inr (.inl (by simp [corners, h1])))
  · subst hi; obtain ⟨l, rfl⟩ : ∃ l, j = l + 1 := ⟨j - 1, by omega⟩; rw [(by omega : r - 2 + 1 = r - 1)] at h hy
    have h1 := pair_of (deadPair_symm h) [(r - 3, l), (r - 3, l + 1), (r - 3, l + 2)] (by clear h; geo3)
    exact .inr (.inl ⟨l, by omega, by simp [edgeTB, h1]⟩)
  · subst hi; subst hj; rw [(by omega : r - 2 + 1 = r - 1)] at h hy
    have h1 := pair_of (deadPair_symm h) [(r - 3, c - 1), (r - 3, c - 2)] (by clear h; geo3)
    exact .inr (.inr (.inl (by simp [corners, h1])))

theorem pair_found (hr : 3 ≤ r) (hc : 3 ≤ c) {x y : Pos} (h : DeadPair r c b x y) : Matches r c (mineMap b) := by
  obtain ⟨x1, x2⟩ := x
  obtain ⟨y1, y2⟩ := y
  have ho := h.2.2.1
  unfold Orth at ho
  dsimp only at ho
  rcases ho with ⟨rfl, rfl | rfl⟩ | ⟨rfl, rfl | rfl⟩
  · exact hpair_found hr hc h
  · exact hpair_found hr hc (deadPair_symm h)
  · exact vpair_found hr hc h
  · exact vpair_found hr hc (deadPair_symm h)

theorem square_of {i j : Nat} (h : DeadSquare r c b i j) (ms : List Pos) (ones : List (Pos × Pos))
    (hms : ∀ q ∈ ms, q ∈ grid r c ∧ (q.1 + 1 = i ∨ q.1 = i + 2) ∧ (q.2 + 1 = j ∨ q.2 = j + 2))
    (hones : ∀ q ∈ ones, InSquare i j q.1 ∧ InSquare i j q.2 ∧ ¬ IsCorner r c q.1 ∧ ¬ IsCorner r c q.2 ∧ Orth q.1 q.2) :
    tmpl (mineMap b) ms ones = true :=
  tmpl_iff.mpr ⟨fun p hp => h.2.2.2 p (hms p hp).1 (hms p hp).2.1 (hms p hp).2.2,
    fun q hq => have h1 := hones q hq; h.2.2.1 q.1 q.2 h1.1 h1.2.1 h1.2.2.1 h1.2.2.2.1 h1.2.2.2.2⟩

macro "geo4" : tactic => `(tactic| (
  simp only [List.forall_mem_cons, List.not_mem_nil, false_imp_iff, implies_true, and_true, mem_grid]
  repeat' apply And.intro
  all_goals first
    | exact .inl trivial
    | exact .inr trivial
    | omega
    | (unfold InSquare; dsimp only; omega)
    | (unfold IsCorner; dsimp only; omega)
    | (unfold Orth; dsimp only; omega)))

theorem square_found (hr : 3 ≤ r) (hc : 3 ≤ c) {i j : Nat} (h : DeadSquare r c b i j) : Matches r c (mineMap b) := by
  have hx := h.1
  have hy := h.2.1
  rcases (by omega : i = 0 ∨ (0 < i ∧ i + 2 < r) ∨ i = r - 2) with hi | hi | hi <;>
    rcases (by omega : j = 0 ∨ (0 < j ∧ j + 2 < c) ∨ j = c - 2) with hj | hj | hj
  · subst hi; subst hj
    have h1 := square_of h [(2, 2)]
      [((0, 1), (1, 1)), ((1, 0), (1, 1))]
      (by clear h; geo4) (by clear h; geo4)
    exact .inr (.inr (.inl (by simp [corners, h1])))
  · subst hi; obtain ⟨l, rfl⟩ : ∃ l, j = l + 1 := ⟨j - 1, by omega⟩
    have h1 := square_of h [(2, l), (2, l + 3)]
      [((0, l + 1), (1, l + 1)), ((1, l + 1), (1, l + 2)), ((1, l + 2), (0, l + 2))]
      (by clear h; geo4) (by clear h; geo4)
    exact .inr (.inl ⟨l, by omega, by simp [edgeTB, h1, (by omega : l < c - 3)]⟩)
  · subst hi; subst hj
    have h1 := square_of h [(2, c - 3)]
      [((0, c - 2), (1, c - 2)), ((1, c - 1), (1, c - 2))]
      (by clear h; geo4) (by clear h; geo4)
    exact .inr (.inr (.inl (by simp [corners, h1])))
  · obtain ⟨k, rfl⟩ : ∃ k, i = k + 1 := ⟨i - 1, by omega⟩; subst hj
    have h1 := square_of h [(k, 2), (k + 3, 2)]
      [((k + 1, 0), (k + 1, 1)), ((k + 1, 1), (k + 2, 1)), ((k + 2, 1), (k + 2, 0))]
      (by clear h; geo4) (by clear h; geo4)
    exact .inl ⟨k, by omega, by simp [edgeLR, h1, (by omega : k < r - 3)]⟩
  · obtain ⟨k, rfl⟩ : ∃ k, i = k + 1 := ⟨i - 1, by omega⟩; obtain ⟨l, rfl⟩ : ∃ l, j = l + 1 := ⟨j - 1, by omega⟩
    have h1 := square_of h [(k, l), (k + 3, l), (k, l + 3), (k + 3, l + 3)]
      [((k + 1, l + 1), (k + 2, l + 1)), ((k + 1, l + 1), (k + 1, l + 2)), ((k + 2, l + 1), (k + 2, l + 2))]
      (by clear h; geo4) (by clear h; geo4)
    exact .inr (.inr (.inr ⟨k, l, by omega, by omega, by simp [inner, h1, (by omega : l < c - 3), (by omega : k < r - 3)]⟩))
  · obtain ⟨k, rfl⟩ : ∃ k, i = k + 1 := ⟨i - 1, by omega⟩; subst hj
    have h1 := square_of h [(k, c - 3), (k + 3, c - 3)]
      [((k + 1, c - 1), (k + 1, c - 2)), ((k + 1, c - 2), (k + 2, c - 2)), ((k + 2, c - 2), (k + 2, c - 1))]
      (by clear h; geo4) (by clear h; geo4)
    exact .inl ⟨k, by omega, by simp [edgeLR, h1, (by omega : k < r - 3)]⟩
  · subst hi; subst hj
    have h1 := square_of h [(r - 3, 2)]
      [((r - 1, 1), (r - 2, 1)), ((r - 2, 0), (r - 2, 1))]
      (by clear h; geo4) (by clear h; geo4)
    exact .inr (.inr (.inl (by simp [corners, h1])))
  · subst hi; obtain ⟨l, rfl⟩ : ∃ l, j = l + 1 := ⟨j - 1, by omega⟩
    have h1 := square_of h [(r - 3, l), (r - 3, l + 3)]
      [((r - 1, l + 1), (r - 2, l + 1)), ((r - 2, l + 1), (r - 2, l + 2)), ((r - 2, l + 2), (r - 1, l + 2))]
      (by clear h; geo4) (by clear h; geo4)
    exact .inr (.inl ⟨l, by omega, by simp [edgeTB, h1, (by omega : l < c - 3)]⟩)
  · subst hi; subst hj
    have h1 := square_of h [(r - 3, c - 3)]
      [((r - 1, c - 2), (r - 2, c - 2)), ((r - 2, c - 1), (r - 2, c - 2))]
      (by clear h; geo4) (by clear h; geo4)
    exact .inr (.inr (.inl (by simp [corners, h1])))

theorem matches_iff (hr : 3 ≤ b.row) (hc : 3 ≤ b.col) :
    Matches b.row b.col (mineMap b) ↔ unsolvableStructure b = some true := by
  unfold unsolvableStructure Matches
  simp only
  rw [if_neg (by omega)]
  simp only [Option.some.injEq, Bool.or_eq_true, List.any_eq_true, List.mem_range]
  constructor
  · rintro (⟨i, h1, h2⟩ | ⟨i, h1, h2⟩ | h | ⟨i, j, h1, h2, h3⟩)
    · exact .inl (.inl (.inl ⟨i, h1, h2⟩))
    · exact .inl (.inl (.inr ⟨i, h1, h2⟩))
    · exact .inl (.inr h)
    · exact .inr ⟨i, h1, j, h2, h3⟩
  · rintro (((⟨i, h1, h2⟩ | ⟨i, h1, h2⟩) | h) | ⟨i, h1, j, h2, h3⟩)
    · exact .inl ⟨i, h1, h2⟩
    · exact .inr (.inl ⟨i, h1, h2⟩)
    · exact .inr (.inr (.inl h))
    · exact .inr (.inr (.inr ⟨i, j, h1, h2, h3⟩))

theorem unsolvable_iff (hr : 3 ≤ b.row) (hc : 3 ≤ b.col) :
    unsolvableStructure b = some true ↔ Dead b.row b.col b := by
  rw [← matches_iff hr hc]
  constructor
  · rintro (⟨i, h1, h2⟩ | ⟨i, h1, h2⟩ | h | ⟨i, j, h1, h2, h3⟩)
    · exact edgeLR_dead hr hc h1 h2
    · exact edgeTB_dead hr hc h1 h2
    · exact corners_dead hr hc h
    · exact inner_dead hr hc h1 h2 h3
  · rintro (⟨z, h⟩ | ⟨x, y, h⟩ | ⟨i, j, h⟩)
    · exact hole_found hr hc h
    · exact pair_found hr hc h
    · exact square_found hr hc h

end Ms
