import Verif.Lemmas.Enum
import Mathlib.Data.Finset.Powerset
import Mathlib.Data.Finset.Prod
import Mathlib.Data.Nat.Choose.Basic
import Mathlib.Algebra.BigOperators.Group.Finset.Basic
import Mathlib.Tactic.Ring
import Mathlib.Tactic.Tauto
import Mathlib.Algebra.Order.BigOperators.Group.Finset

namespace Ms
open Finset

/-! # Counting subsets by their intersections with disjoint groups -/

variable {α : Type} [DecidableEq α]

theorem card_split (G R : Finset α) (hd : Disjoint G R) (P Q : Finset α → Prop) [DecidablePred P] [DecidablePred Q] :
    ((G ∪ R).powerset.filter fun T => P (T ∩ G) ∧ Q (T ∩ R)).card =
      (G.powerset.filter P).card * (R.powerset.filter Q).card := by
  rw [← Finset.card_product]
  apply Finset.card_nbij' (fun T => (T ∩ G, T ∩ R)) (fun AB => AB.1 ∪ AB.2)
  · intro T hT
    simp only [Finset.coe_filter, Finset.mem_powerset, Set.mem_setOf_eq] at hT
    simp only [Finset.coe_product, Finset.coe_filter, Finset.mem_powerset, Set.mem_prod, Set.mem_setOf_eq]
    exact ⟨⟨Finset.inter_subset_right, hT.2.1⟩, ⟨Finset.inter_subset_right, hT.2.2⟩⟩
  · rintro ⟨A, B⟩ hAB
    simp only [Finset.coe_product, Finset.coe_filter, Finset.mem_powerset, Set.mem_prod, Set.mem_setOf_eq] at hAB
    simp only [Finset.coe_filter, Finset.mem_powerset, Set.mem_setOf_eq]
    obtain ⟨⟨h1, h2⟩, h3, h4⟩ := hAB
    have e1 : (A ∪ B) ∩ G = A := by
      rw [Finset.union_inter_distrib_right, Finset.inter_eq_left.mpr h1,
        Finset.disjoint_iff_inter_eq_empty.mp (Finset.disjoint_of_subset_left h3 hd.symm), Finset.union_empty]
    have e2 : (A ∪ B) ∩ R = B := by
      rw [Finset.union_inter_distrib_right, Finset.inter_eq_left.mpr h3,
        Finset.disjoint_iff_inter_eq_empty.mp (Finset.disjoint_of_subset_left h1 hd), Finset.empty_union]
    rw [e1, e2]
    exact ⟨Finset.union_subset_union h1 h3, h2, h4⟩
  · intro T hT
    simp only [Finset.coe_filter, Finset.mem_powerset, Set.mem_setOf_eq] at hT
    show T ∩ G ∪ T ∩ R = T
    rw [← Finset.inter_union_distrib_left, Finset.inter_eq_left.mpr hT.1]
  · rintro ⟨A, B⟩ hAB
    simp only [Finset.coe_product, Finset.coe_filter, Finset.mem_powerset, Set.mem_prod, Set.mem_setOf_eq] at hAB
    obtain ⟨⟨h1, h2⟩, h3, h4⟩ := hAB
    have e1 : (A ∪ B) ∩ G = A := by
      rw [Finset.union_inter_distrib_right, Finset.inter_eq_left.mpr h1,
        Finset.disjoint_iff_inter_eq_empty.mp (Finset.disjoint_of_subset_left h3 hd.symm), Finset.union_empty]
    have e2 : (A ∪ B) ∩ R = B := by
      rw [Finset.union_inter_distrib_right, Finset.inter_eq_left.mpr h3,
        Finset.disjoint_iff_inter_eq_empty.mp (Finset.disjoint_of_subset_left h1 hd), Finset.empty_union]
    show ((A ∪ B) ∩ G, (A ∪ B) ∩ R) = (A, B)
    rw [e1, e2]

/-- The union of a list of sets. -/
def unionL : List (Finset α) → Finset α
  | [] => ∅
  | G :: Gs => G ∪ unionL Gs

theorem mem_unionL {Gs : List (Finset α)} {p : α} : p ∈ unionL Gs ↔ ∃ G ∈ Gs, p ∈ G := by
  induction Gs with
  | nil => simp [unionL]
  | cons G Gs ih => simp [unionL, ih]

/-- The sizes of the intersections with the groups. -/
def countsOf (Gs : List (Finset α)) (T : Finset α) : List Nat := Gs.map fun G => (T ∩ G).card

/-- The number of ways to realise given counts. -/
def prodL : List (Finset α) → List Nat → Nat
  | G :: Gs, u :: v => G.card.choose u * prodL Gs v
  | _, _ => 1

theorem disjoint_unionL {G : Finset α} {Gs : List (Finset α)} (h : (G :: Gs).Pairwise Disjoint) :
    Disjoint G (unionL Gs) := by
  rw [List.pairwise_cons] at h
  rw [Finset.disjoint_left]
  intro p h1 h2
  obtain ⟨G', h3, h4⟩ := mem_unionL.mp h2
  exact Finset.disjoint_left.mp (h.1 G' h3) h1 h4

theorem countsOf_inter (Gs : List (Finset α)) (T : Finset α) : countsOf Gs (T ∩ unionL Gs) = countsOf Gs T := by
  unfold countsOf
  apply List.map_congr_left
  intro G hG
  congr 1
  rw [Finset.inter_assoc]
  congr 1
  exact Finset.inter_eq_right.mpr (fun p hp => mem_unionL.mpr ⟨G, hG, hp⟩)

theorem powerset_filter_card (G : Finset α) (u : Nat) :
    (G.powerset.filter fun A => A.card = u).card = G.card.choose u := by
  rw [← Finset.card_powersetCard u G]
  congr 1
  ext A
  rw [Finset.mem_filter, Finset.mem_powerset, Finset.mem_powersetCard]

theorem filter_inter_self {G A : Finset α} (h : A ⊆ G) : A ∩ G = A := Finset.inter_eq_left.mpr h

theorem card_counts : ∀ (Gs : List (Finset α)) (v : List Nat), Gs.Pairwise Disjoint → v.length = Gs.length →
    ((unionL Gs).powerset.filter fun T => countsOf Gs T = v).card = prodL Gs v := by
  intro Gs
  induction Gs with
  | nil =>
    intro v _ hv
    rw [List.length_nil, List.length_eq_zero_iff] at hv
    subst hv
    rfl
  | cons G Gs ih =>
    intro v hd hv
    cases v with
    | nil => simp at hv
    | cons u v =>
      have := card_split G (unionL Gs) (disjoint_unionL hd) (fun A => A.card = u) (fun B => countsOf Gs B = v)
      rw [show prodL (G :: Gs) (u :: v) = G.card.choose u * prodL Gs v from rfl,
        ← ih v (List.pairwise_cons.mp hd).2 (by simpa using hv), ← powerset_filter_card]
      convert this using 2
      apply Finset.filter_congr
      intro T _
      rw [countsOf_inter]
      simp [countsOf]

theorem card_mem_choose (G : Finset α) (p : α) (hp : p ∈ G) (u : Nat) :
    (G.powerset.filter fun A => A.card = u ∧ p ∈ A).card * G.card = G.card.choose u * u := by
  have h1 : (G.powerset.filter fun A => A.card = u ∧ p ∈ A).card +
      (G.powerset.filter fun A => A.card = u ∧ p ∉ A).card = G.card.choose u := by
    rw [← powerset_filter_card, ← Finset.card_filter_add_card_filter_not (s := G.powerset.filter fun A => A.card = u) (fun A => p ∈ A),
      Finset.filter_filter, Finset.filter_filter]
  have h2 : (G.powerset.filter fun A => A.card = u ∧ p ∉ A).card = (G.card - 1).choose u := by
    rw [← Finset.card_erase_of_mem hp, ← powerset_filter_card]
    congr 1
    ext A
    simp only [Finset.mem_filter, Finset.mem_powerset, Finset.subset_erase]
    tauto
  rw [h2] at h1
  obtain ⟨n, hn⟩ : ∃ n, G.card = n + 1 := ⟨G.card - 1, by
    have := Finset.card_pos.mpr ⟨p, hp⟩; omega⟩
  rw [hn] at h1 ⊢
  rw [Nat.add_sub_cancel] at h1
  cases u with
  | zero => simp at h1 ⊢; exact fun A _ h => by simp [h]
  | succ u =>
    rw [Nat.choose_succ_succ'] at h1
    have h3 : (G.powerset.filter fun A => A.card = u + 1 ∧ p ∈ A).card = n.choose u := by omega
    rw [h3, ← Nat.add_one_mul_choose_eq]
    ring

theorem card_counts_mem : ∀ (Gs : List (Finset α)) (v : List Nat), Gs.Pairwise Disjoint → v.length = Gs.length →
    ∀ (c : Nat) (p : α), c < Gs.length → p ∈ Gs.getD c ∅ →
    ((unionL Gs).powerset.filter fun T => countsOf Gs T = v ∧ p ∈ T).card * (Gs.getD c ∅).card =
      prodL Gs v * v.getD c 0 := by
  intro Gs
  induction Gs with
  | nil => intro v _ _ c p hc; simp at hc
  | cons G Gs ih =>
    intro v hd hv c p hc hp
    cases v with
    | nil => simp at hv
    | cons u v =>
      have hv' : v.length = Gs.length := by simpa using hv
      have hd' := (List.pairwise_cons.mp hd).2
      rw [show prodL (G :: Gs) (u :: v) = G.card.choose u * prodL Gs v from rfl]
      cases c with
      | zero =>
        rw [List.getD_cons_zero] at hp ⊢
        rw [List.getD_cons_zero]
        have := card_split G (unionL Gs) (disjoint_unionL hd) (fun A => A.card = u ∧ p ∈ A) (fun B => countsOf Gs B = v)
        have e : ((unionL (G :: Gs)).powerset.filter fun T => countsOf (G :: Gs) T = u :: v ∧ p ∈ T).card =
            (G.powerset.filter fun A => A.card = u ∧ p ∈ A).card * prodL Gs v := by
          rw [← card_counts Gs v hd' hv']
          convert this using 2
          apply Finset.filter_congr
          intro T _
          rw [countsOf_inter]
          simp only [countsOf, List.map_cons, List.cons.injEq, Finset.mem_inter, hp, and_true]
          tauto
        rw [e, Nat.mul_right_comm, card_mem_choose G p hp u]
        ring
      | succ c =>
        rw [List.getD_cons_succ] at hp ⊢
        rw [List.getD_cons_succ]
        have hpU : p ∈ unionL Gs := by
          refine mem_unionL.mpr ⟨Gs.getD c ∅, ?_, hp⟩
          exact getD_mem_of_lt _ (by simpa using hc)
        have := card_split G (unionL Gs) (disjoint_unionL hd) (fun A => A.card = u) (fun B => countsOf Gs B = v ∧ p ∈ B)
        have e : ((unionL (G :: Gs)).powerset.filter fun T => countsOf (G :: Gs) T = u :: v ∧ p ∈ T).card =
            G.card.choose u * ((unionL Gs).powerset.filter fun T => countsOf Gs T = v ∧ p ∈ T).card := by
          rw [← powerset_filter_card]
          convert this using 2
          apply Finset.filter_congr
          intro T _
          rw [countsOf_inter]
          simp only [countsOf, List.map_cons, List.cons.injEq, Finset.mem_inter, hpU, and_true]
          tauto
        rw [e, Nat.mul_assoc, ih v hd' hv' c p (by simpa using hc) hp]
        ring

/-- Summing over a duplicate-free list of count vectors. -/
theorem card_by_counts (Gs : List (Finset α)) (hd : Gs.Pairwise Disjoint) (L : List (List Nat)) (hn : L.Nodup)
    (P : Finset α → Prop) [DecidablePred P] (Q : Finset α → Prop) [DecidablePred Q]
    (hP : ∀ T, T ⊆ unionL Gs → (P T ↔ countsOf Gs T ∈ L)) :
    ((unionL Gs).powerset.filter fun T => P T ∧ Q T).card =
      (L.map fun v => ((unionL Gs).powerset.filter fun T => countsOf Gs T = v ∧ Q T).card).sum := by
  rw [← List.sum_toFinset _ hn, Finset.card_eq_sum_card_fiberwise (f := countsOf Gs) (t := L.toFinset)]
  · apply Finset.sum_congr rfl
    intro v hv
    congr 1
    ext T
    simp only [Finset.mem_filter, Finset.mem_powerset]
    rw [List.mem_toFinset] at hv
    constructor
    · rintro ⟨⟨h1, h2, h3⟩, h4⟩; exact ⟨h1, h4, h3⟩
    · rintro ⟨h1, h2, h3⟩
      exact ⟨⟨h1, (hP T h1).mpr (by rw [h2]; exact hv), h3⟩, h2⟩
  · intro T hT
    simp only [Finset.coe_filter, Finset.mem_powerset, Set.mem_setOf_eq] at hT
    simp only [Finset.mem_coe, List.mem_toFinset]
    exact (hP T hT.1).mp hT.2.1

theorem countsOf_sum (Gs : List (Finset α)) (hd : Gs.Pairwise Disjoint) : ∀ (T : Finset α), T ⊆ unionL Gs →
    (countsOf Gs T).sum = T.card := by
  induction Gs with
  | nil =>
    intro T hT
    have : T = ∅ := Finset.subset_empty.mp hT
    subst this; rfl
  | cons G Gs ih =>
    intro T hT
    have h1 := ih (List.pairwise_cons.mp hd).2 (T ∩ unionL Gs) Finset.inter_subset_right
    rw [countsOf_inter] at h1
    have : countsOf (G :: Gs) T = (T ∩ G).card :: countsOf Gs T := rfl
    rw [this, List.sum_cons, h1, ← Finset.card_union_of_disjoint, ← Finset.inter_union_distrib_left,
      show G ∪ unionL Gs = unionL (G :: Gs) from rfl, Finset.inter_eq_left.mpr hT]
    exact Finset.disjoint_of_subset_left Finset.inter_subset_right
      (Finset.disjoint_of_subset_right Finset.inter_subset_right (disjoint_unionL hd))

end Ms
