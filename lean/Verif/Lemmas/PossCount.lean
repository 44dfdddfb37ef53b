import Verif.Lemmas.Poss
import Verif.Lemmas.Count

/-! # Sums over the choices count layouts -/

namespace Ms

/-- Choosing one line `(mines, weight)` per table so that the mines add up to `k`: the sum of the products of the
weights. -/
def waysF : List (List (Nat × Nat)) → Nat → Nat
  | [], k => if k = 0 then 1 else 0
  | t :: ts, k => (t.map fun l => if l.1 ≤ k then l.2 * waysF ts (k - l.1) else 0).sum

/-- The line of table `j` chosen by `s`. -/
def pickAt (T : List (List (Nat × Nat))) (s : List Nat) (j : Nat) : Nat × Nat := (T.getD j []).getD (s.getD j 0) (0, 0)

theorem range_map_getD {α β : Type} (t : List α) (d : α) (F : α → β) :
    (List.range t.length).map (fun a => F (t.getD a d)) = t.map F := by
  apply List.ext_getElem
  · simp
  · intro n h1 h2
    simp only [List.length_map] at h2
    simp [List.getD_eq_getElem?_getD, List.getElem?_eq_getElem h2]

theorem sum_map_flatMap {α β : Type} (l : List α) (f : α → List β) (F : β → ℚ) :
    ((l.flatMap f).map F).sum = (l.map fun a => ((f a).map F).sum).sum := by
  induction l with
  | nil => rfl
  | cons a l ih => simp [ih]

theorem sum_swap2 {α β : Type} (L : List α) (M : List β) (f : β → α → ℚ) :
    (M.map fun k => (L.map fun s => f k s).sum).sum = (L.map fun s => (M.map fun k => f k s).sum).sum := by
  induction L with
  | nil => simp
  | cons s L ih =>
    simp only [List.map_cons, List.sum_cons]
    rw [← ih, ← List.sum_map_add]

theorem range_sum_cons {M : Type} [AddCommMonoid M] (f : Nat → M) (n : Nat) : ((List.range (n + 1)).map f).sum = f 0 + ((List.range n).map fun j => f (j + 1)).sum := by
  rw [List.range_succ_eq_map]; simp [Function.comp_def]

theorem range_prod_cons {M : Type} [CommMonoid M] (f : Nat → M) (n : Nat) : ((List.range (n + 1)).map f).prod = f 0 * ((List.range n).map fun j => f (j + 1)).prod := by
  rw [List.range_succ_eq_map]; simp [Function.comp_def]

theorem product_sum (U : List Nat) (f : Nat → ℚ) : ∀ (T : List (List (Nat × Nat))) (m : Nat),
    ((product ((T.map fun t => List.range t.length) ++ [List.range U.length])).map fun s =>
      if ((List.range T.length).map fun j => (pickAt T s j).1).sum + U.getD (s.getD T.length 0) 0 = m then
        ((List.range T.length).map fun j => ((pickAt T s j).2 : ℚ)).prod * f (s.getD T.length 0) else 0).sum =
      ((List.range U.length).map fun u => if U.getD u 0 ≤ m then (waysF T (m - U.getD u 0) : ℚ) * f u else 0).sum := by
  intro T
  induction T with
  | nil =>
    intro m
    simp only [List.map_nil, List.nil_append, product, List.length_nil, List.range_zero, List.sum_nil, List.prod_nil,
      Nat.zero_add, one_mul, List.map_cons]
    rw [sum_map_flatMap]
    congr 1
    apply List.map_congr_left
    intro u _
    simp only [List.map_cons, List.map_nil, List.sum_cons, List.sum_nil, add_zero, List.getD_cons_zero, waysF]
    by_cases h : U.getD u 0 = m
    · rw [if_pos h, if_pos (by omega), if_pos (by omega)]; simp
    · rw [if_neg h]
      by_cases h2 : U.getD u 0 ≤ m
      · rw [if_pos h2, if_neg (by omega)]; simp
      · rw [if_neg h2]
  | cons t ts ih =>
    intro m
    rw [List.map_cons, List.cons_append, product, sum_map_flatMap]
    simp only [List.map_map, Function.comp_def, List.length_cons]
    simp only [range_sum_cons, range_prod_cons]
    have hp : ∀ a s j, pickAt (t :: ts) (a :: s) (j + 1) = pickAt ts s j := by intro a s j; rfl
    have hp0 : ∀ a s, pickAt (t :: ts) (a :: s) 0 = t.getD a (0, 0) := by intro a s; rfl
    simp only [hp, hp0, List.getD_cons_succ]
    have step : ∀ a, ((product ((ts.map fun t => List.range t.length) ++ [List.range U.length])).map fun s =>
        if (t.getD a (0, 0)).1 + ((List.range ts.length).map fun j => (pickAt ts s j).1).sum + U.getD (s.getD ts.length 0) 0 = m then
          (((t.getD a (0, 0)).2 : ℚ) * ((List.range ts.length).map fun j => ((pickAt ts s j).2 : ℚ)).prod) * f (s.getD ts.length 0) else 0).sum =
        ((List.range U.length).map fun u => if U.getD u 0 + (t.getD a (0, 0)).1 ≤ m then
          ((t.getD a (0, 0)).2 : ℚ) * waysF ts (m - U.getD u 0 - (t.getD a (0, 0)).1) * f u else 0).sum := by
      intro a
      generalize t.getD a (0, 0) = l
      by_cases hl : l.1 ≤ m
      · have h1 := ih (m - l.1)
        have e1 : (fun s : List Nat => if l.1 + ((List.range ts.length).map fun j => (pickAt ts s j).1).sum + U.getD (s.getD ts.length 0) 0 = m then
            ((l.2 : ℚ) * ((List.range ts.length).map fun j => ((pickAt ts s j).2 : ℚ)).prod) * f (s.getD ts.length 0) else 0) =
            fun s => (l.2 : ℚ) * (if ((List.range ts.length).map fun j => (pickAt ts s j).1).sum + U.getD (s.getD ts.length 0) 0 = m - l.1 then
            ((List.range ts.length).map fun j => ((pickAt ts s j).2 : ℚ)).prod * f (s.getD ts.length 0) else 0) := by
          funext s
          by_cases h : ((List.range ts.length).map fun j => (pickAt ts s j).1).sum + U.getD (s.getD ts.length 0) 0 = m - l.1
          · rw [if_pos h, if_pos (by omega)]; ring
          · rw [if_neg h, if_neg (by omega)]; ring
        rw [e1, List.sum_map_mul_left, h1, ← List.sum_map_mul_left]
        congr 1
        apply List.map_congr_left
        intro u _
        by_cases h : U.getD u 0 + l.1 ≤ m
        · rw [if_pos h, if_pos (by omega), show m - l.1 - U.getD u 0 = m - U.getD u 0 - l.1 by omega]; ring
        · rw [if_neg h, if_neg (by omega)]; ring
      · have z1 : ((product ((ts.map fun t => List.range t.length) ++ [List.range U.length])).map fun s =>
            if l.1 + ((List.range ts.length).map fun j => (pickAt ts s j).1).sum + U.getD (s.getD ts.length 0) 0 = m then
            ((l.2 : ℚ) * ((List.range ts.length).map fun j => ((pickAt ts s j).2 : ℚ)).prod) * f (s.getD ts.length 0) else 0).sum = 0 := by
          apply List.sum_eq_zero
          intro x hx
          obtain ⟨s, -, rfl⟩ := List.mem_map.mp hx
          rw [if_neg (by omega)]
        rw [z1]
        symm
        apply List.sum_eq_zero
        intro x hx
        obtain ⟨s, -, rfl⟩ := List.mem_map.mp hx
        rw [if_neg (by omega)]
    simp only [step]
    rw [sum_swap2]
    congr 1
    apply List.map_congr_left
    intro u _
    rw [range_map_getD t (0, 0) fun l => if U.getD u 0 + l.1 ≤ m then (l.2 : ℚ) * waysF ts (m - U.getD u 0 - l.1) * f u else 0]
    by_cases h : U.getD u 0 ≤ m
    · rw [if_pos h, waysF]
      rw [show ∀ l : List Nat, ((l.sum : Nat) : ℚ) = (l.map Nat.cast).sum from fun l => by induction l <;> simp_all, ← List.sum_map_mul_right, List.map_map]
      congr 1
      apply List.map_congr_left
      intro l _
      simp only [Function.comp_def]
      by_cases h2 : U.getD u 0 + l.1 ≤ m
      · rw [if_pos h2, if_pos (by omega)]; push_cast; ring
      · rw [if_neg h2, if_neg (by omega)]; simp
    · rw [if_neg h]
      apply List.sum_eq_zero
      intro x hx
      obtain ⟨s, -, rfl⟩ := List.mem_map.mp hx
      rw [if_neg (by omega)]

theorem sum_map_filter {α : Type} (L : List α) (P : α → Prop) [DecidablePred P] (F : α → ℚ) :
    ((L.filter fun s => P s).map F).sum = (L.map fun s => if P s then F s else 0).sum := by
  induction L with
  | nil => rfl
  | cons s L ih =>
    rw [List.filter_cons]
    by_cases h : P s
    · simp [h, ih]
    · simp [h, ih]

/-! ## what the sums count -/

variable {α : Type} [DecidableEq α]

open Classical in
/-- The table lists by size the subsets of `X` with the property `P`. -/
structure Represents (t : List (Nat × Nat)) (X : Finset α) (P : Finset α → Prop) : Prop where
  nodup : (t.map fun l => l.1).Nodup
  count : ∀ l ∈ t, l.2 = (X.powerset.filter fun A => A.card = l.1 ∧ P A).card
  all : ∀ A, A ⊆ X → P A → ∃ l ∈ t, l.1 = A.card

theorem card_inter_add {X R A : Finset α} (hd : Disjoint X R) (hA : A ⊆ X ∪ R) : (A ∩ X).card + (A ∩ R).card = A.card := by
  rw [← Finset.card_union_of_disjoint, ← Finset.inter_union_distrib_left, Finset.inter_eq_left.mpr hA]
  exact Finset.disjoint_of_subset_left Finset.inter_subset_right (Finset.disjoint_of_subset_right Finset.inter_subset_right hd)

open Classical in
theorem split_card {t : List (Nat × Nat)} {X R : Finset α} {P : Finset α → Prop} (h : Represents t X P)
    (hd : Disjoint X R) (Q : Finset α → Prop) (k : Nat) :
    ((X ∪ R).powerset.filter fun A => A.card = k ∧ P (A ∩ X) ∧ Q (A ∩ R)).card =
      (t.map fun l => if l.1 ≤ k then l.2 * (R.powerset.filter fun A => A.card = k - l.1 ∧ Q A).card else 0).sum := by
  rw [Finset.card_eq_sum_card_fiberwise (f := fun A => (A ∩ X).card) (t := (t.map fun l => l.1).toFinset)]
  · rw [List.sum_toFinset _ h.nodup, List.map_map]
    congr 1
    apply List.map_congr_left
    intro l hl
    simp only [Function.comp_def, Finset.filter_filter]
    by_cases hk : l.1 ≤ k
    · rw [if_pos hk, h.count l hl, ← card_split X R hd]
      congr 1
      ext A
      simp only [Finset.mem_filter, Finset.mem_powerset]
      constructor
      · rintro ⟨h1, ⟨h2, h3, h4⟩, h5⟩
        have := card_inter_add hd h1
        exact ⟨h1, ⟨h5, h3⟩, by omega, h4⟩
      · rintro ⟨h1, ⟨h5, h3⟩, h2, h4⟩
        have := card_inter_add hd h1
        exact ⟨h1, ⟨by omega, h3, h4⟩, h5⟩
    · rw [if_neg hk, Finset.card_eq_zero, Finset.filter_eq_empty_iff]
      rintro A hA ⟨⟨h2, -⟩, h5⟩
      rw [Finset.mem_powerset] at hA
      have := card_inter_add hd hA
      omega
  · intro A hA
    simp only [Finset.coe_filter, Finset.mem_powerset, Set.mem_setOf_eq] at hA
    obtain ⟨l, h1, h2⟩ := h.all (A ∩ X) Finset.inter_subset_right hA.2.2.1
    simp only [Finset.mem_coe, List.mem_toFinset, List.mem_map]
    exact ⟨l, h1, h2⟩

open Classical in
theorem waysF_card : ∀ (T : List (List (Nat × Nat))) (Xs : List (Finset α × (Finset α → Prop))),
    List.Forall₂ (fun t x => Represents t x.1 x.2) T Xs → (Xs.map fun x => x.1).Pairwise Disjoint → ∀ k,
    waysF T k = ((unionL (Xs.map fun x => x.1)).powerset.filter fun A => A.card = k ∧ ∀ x ∈ Xs, x.2 (A ∩ x.1)).card := by
  intro T Xs h
  induction h with
  | nil =>
    intro _ k
    simp only [waysF, List.map_nil, unionL, Finset.powerset_empty, List.not_mem_nil, false_implies, implies_true, and_true]
    by_cases hk : k = 0
    · subst hk; rfl
    · rw [if_neg hk]
      symm
      rw [Finset.card_eq_zero, Finset.filter_eq_empty_iff]
      intro A hA hc
      rw [Finset.mem_singleton] at hA
      subst hA
      exact hk hc.symm
  | @cons t x T Xs h1 h2 ih =>
    intro hp k
    have hd := disjoint_unionL hp
    have hp' : (Xs.map fun x => x.1).Pairwise Disjoint := (List.pairwise_cons.mp hp).2
    rw [waysF, List.map_cons, unionL]
    have e : ((x.1 ∪ unionL (Xs.map fun x => x.1)).powerset.filter fun A => A.card = k ∧ ∀ y ∈ x :: Xs, y.2 (A ∩ y.1)) =
        ((x.1 ∪ unionL (Xs.map fun x => x.1)).powerset.filter fun A => A.card = k ∧ x.2 (A ∩ x.1) ∧
          ∀ y ∈ Xs, y.2 (A ∩ unionL (Xs.map fun x => x.1) ∩ y.1)) := by
      ext A
      simp only [Finset.mem_filter, Finset.mem_powerset, List.forall_mem_cons]
      have : ∀ y ∈ Xs, A ∩ unionL (Xs.map fun x => x.1) ∩ y.1 = A ∩ y.1 := by
        intro y hy
        refine (Finset.inter_assoc ..).trans (congrArg (A ∩ ·) (Finset.inter_eq_right.mpr ?_))
        intro p hp
        exact mem_unionL.mpr ⟨y.1, List.mem_map.mpr ⟨y, hy, rfl⟩, hp⟩
      constructor
      · rintro ⟨a, b, c, d⟩; exact ⟨a, b, c, fun y hy => by rw [this y hy]; exact d y hy⟩
      · rintro ⟨a, b, c, d⟩; exact ⟨a, b, c, fun y hy => by rw [← this y hy]; exact d y hy⟩
    rw [e]
    refine Eq.trans ?_ (Eq.trans (split_card h1 hd (fun A => ∀ y ∈ Xs, y.2 (A ∩ y.1)) k).symm (by congr!))
    refine congrArg List.sum (List.map_congr_left fun l _ => ?_)
    rw [ih hp' (k - l.1)]
    congr!

open Classical in
/-- All layouts, with the other cells `I` free (or with the property `PI`). -/
theorem waysF_total {T : List (List (Nat × Nat))} {Xs : List (Finset α × (Finset α → Prop))}
    (h : List.Forall₂ (fun t x => Represents t x.1 x.2) T Xs) (hp : (Xs.map fun x => x.1).Pairwise Disjoint)
    (I : Finset α) (hI : Disjoint I (unionL (Xs.map fun x => x.1))) (PI : Finset α → Prop) (m : Nat) :
    ((I ∪ unionL (Xs.map fun x => x.1)).powerset.filter fun A =>
        A.card = m ∧ PI (A ∩ I) ∧ ∀ x ∈ Xs, x.2 (A ∩ x.1)).card =
      ((List.range (I.card + 1)).map fun u => if u ≤ m then
        (I.powerset.filter fun A => A.card = u ∧ PI A).card * waysF T (m - u) else 0).sum := by
  have hr : Represents ((List.range (I.card + 1)).map fun u => (u, (I.powerset.filter fun A => A.card = u ∧ PI A).card)) I PI := by
    refine ⟨?_, ?_, ?_⟩
    · rw [List.map_map]; simpa [Function.comp_def] using List.nodup_range
    · intro l hl
      obtain ⟨u, -, rfl⟩ := List.mem_map.mp hl
      rfl
    · intro A hA _
      exact ⟨_, List.mem_map.mpr ⟨A.card, List.mem_range.mpr (by have := Finset.card_le_card hA; omega), rfl⟩, rfl⟩
  have e : ((I ∪ unionL (Xs.map fun x => x.1)).powerset.filter fun A => A.card = m ∧ PI (A ∩ I) ∧ ∀ x ∈ Xs, x.2 (A ∩ x.1)) =
        ((I ∪ unionL (Xs.map fun x => x.1)).powerset.filter fun A => A.card = m ∧ PI (A ∩ I) ∧
          ∀ y ∈ Xs, y.2 (A ∩ unionL (Xs.map fun x => x.1) ∩ y.1)) := by
    ext A
    simp only [Finset.mem_filter, Finset.mem_powerset]
    have : ∀ y ∈ Xs, A ∩ unionL (Xs.map fun x => x.1) ∩ y.1 = A ∩ y.1 := by
      intro y hy
      refine (Finset.inter_assoc ..).trans (congrArg (A ∩ ·) (Finset.inter_eq_right.mpr ?_))
      intro p hp
      exact mem_unionL.mpr ⟨y.1, List.mem_map.mpr ⟨y, hy, rfl⟩, hp⟩
    constructor
    · rintro ⟨a, b, c, d⟩; exact ⟨a, b, c, fun y hy => by rw [this y hy]; exact d y hy⟩
    · rintro ⟨a, b, c, d⟩; exact ⟨a, b, c, fun y hy => by rw [← this y hy]; exact d y hy⟩
  rw [e]
  refine Eq.trans (Eq.trans (by congr!) (split_card hr hI (fun A => ∀ y ∈ Xs, y.2 (A ∩ y.1)) m)) ?_
  rw [List.map_map]
  congr 1
  apply List.map_congr_left
  intro u _
  simp only [Function.comp_def]
  rw [waysF_card T Xs h hp]

/-- No way to place fewer than the smallest or more than the largest numbers of mines. -/
theorem waysF_bounds : ∀ (T : List (List (Nat × Nat))) (los his : List Nat),
    List.Forall₂ (fun t lo => ∀ l ∈ t, lo ≤ l.1) T los → List.Forall₂ (fun t hi => ∀ l ∈ t, l.1 ≤ hi) T his →
    ∀ k, waysF T k ≠ 0 → los.sum ≤ k ∧ k ≤ his.sum := by
  intro T los his h
  induction h generalizing his with
  | nil =>
    intro h2 k hk
    cases h2
    unfold waysF at hk
    have : k = 0 := by by_contra hc; rw [if_neg hc] at hk; exact hk rfl
    simp [this]
  | @cons t lo T los h1 h2 ih =>
    intro h3 k hk
    cases h3 with
    | @cons _ hi _ his h4 h5 =>
      rw [waysF] at hk
      have : ∃ l ∈ t, l.1 ≤ k ∧ waysF T (k - l.1) ≠ 0 := by
        by_contra hc
        push Not at hc
        apply hk
        apply List.sum_eq_zero
        intro x hx
        obtain ⟨l, hl, rfl⟩ := List.mem_map.mp hx
        by_cases hlk : l.1 ≤ k
        · rw [if_pos hlk, hc l hl hlk, Nat.mul_zero]
        · rw [if_neg hlk]
      obtain ⟨l, hl, hlk, hw⟩ := this
      have := ih his h5 _ hw
      have a := h1 l hl
      have b := h4 l hl
      simp only [List.sum_cons]
      omega

theorem waysF_attained : ∀ (T : List (List (Nat × Nat))) (los : List Nat),
    List.Forall₂ (fun t lo => ∃ l ∈ t, l.1 = lo ∧ l.2 ≠ 0) T los → waysF T los.sum ≠ 0 := by
  intro T los h
  induction h with
  | nil => simp [waysF]
  | @cons t lo T los h1 _ ih =>
    obtain ⟨l, hl, rfl, hw⟩ := h1
    rw [waysF, List.sum_cons]
    intro hz
    have := List.sum_eq_zero_iff.mp hz _ (List.mem_map.mpr ⟨l, hl, rfl⟩)
    rw [if_pos (by omega), Nat.add_sub_cancel_left, Nat.mul_eq_zero] at this
    rcases this with h | h
    · exact hw h
    · exact ih h

end Ms
