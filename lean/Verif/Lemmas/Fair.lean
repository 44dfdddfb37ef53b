import Verif.SpecFair
import Verif.Lemmas.Laymine
import Verif.Lemmas.GameWait
import Mathlib.GroupTheory.Perm.DomMulAct
import Mathlib.Algebra.BigOperators.Fin
import Mathlib.Data.Nat.Factorial.BigOperators

/-! # Counting shuffles -/

namespace Ms
open Spec Nat

theorem rearranged_eq {α : Type} {n : Nat} {σ : Equiv.Perm (Fin n)} {l : List α} (h : l.length = n) :
    rearranged σ l = List.ofFn fun i : Fin n => l[(σ i).val]'(h ▸ (σ i).isLt) := by
  unfold rearranged
  rw [dif_pos h]

theorem rearranged_perm {α : Type} {n : Nat} (σ : Equiv.Perm (Fin n)) (l : List α) : (rearranged σ l).Perm l := by
  by_cases h : l.length = n
  · subst h
    rw [rearranged_eq rfl]
    have := Equiv.Perm.ofFn_comp_perm σ fun i : Fin l.length => l[i.val]
    refine List.Perm.trans this ?_
    rw [List.ofFn_getElem]
  · unfold rearranged
    rw [dif_neg h]

theorem unshuffled_mine {area m : Nat} (hm : m ≤ area) (i : Fin area) :
    (unshuffled area m)[i.val]'(by rw [unshuffled_length hm]; exact i.isLt) = if area - m ≤ i.val then -1 else 0 := by
  unfold unshuffled
  rw [List.getElem_append]
  split_ifs with h1 h2 h2
  · simp at h1; omega
  · simp
  · simp
  · simp at h1; omega

theorem card_fiber {α : Type} [DecidableEq α] {n : Nat} (F : Fin n → α) (a : α) :
    Fintype.card {i // F i = a} = (List.ofFn F).count a := by
  rw [Fintype.card_subtype]
  have h : ((List.ofFn F : List α) : Multiset α) = Multiset.map F Finset.univ.val := (Fin.univ_val_map F).symm
  rw [← Multiset.coe_count, h, Multiset.count_map, Finset.card_def, Finset.filter_val]
  congr 1
  exact Multiset.filter_congr fun x _ => eq_comm

/-- two arrangements of the same entries differ by a permutation of places -/
theorem exists_rearrange {α : Type} [DecidableEq α] {n : Nat} {F G : Fin n → α} (h : (List.ofFn F).Perm (List.ofFn G)) :
    ∃ σ : Equiv.Perm (Fin n), F ∘ σ = G := by
  have e : ∀ a, Nonempty ({i // G i = a} ≃ {i // F i = a}) := fun a =>
    Fintype.card_eq.mp (by rw [card_fiber, card_fiber, h.count_eq])
  refine ⟨Equiv.ofFiberEquiv fun a => (e a).some, ?_⟩
  funext i
  exact Equiv.ofFiberEquiv_map _ i

/-- the shuffles that leave one arrangement -/
theorem count_arrangement {area m : Nat} (hm : m ≤ area) {s : List Int} (hs : s.Perm (unshuffled area m)) :
    (Finset.univ.filter fun σ : Equiv.Perm (Fin area) => rearranged σ (unshuffled area m) = s).card = m ! * (area - m)! := by
  classical
  have hl := unshuffled_length hm
  have hsl : s.length = area := hs.length_eq.trans hl
  let f : Fin area → Int := fun i => (unshuffled area m)[i.val]'(by rw [hl]; exact i.isLt)
  let g : Fin area → Int := fun i => s[i.val]'(by rw [hsl]; exact i.isLt)
  let fb : Fin area → Bool := fun i => decide (area - m ≤ i.val)
  have hf : List.ofFn f = unshuffled area m := List.ext_getElem (by simp [hl]) fun i h1 h2 => by simp [f]
  have hg : List.ofFn g = s := List.ext_getElem (by simp [hsl]) fun i h1 h2 => by simp [g]
  have key : ∀ σ : Equiv.Perm (Fin area), rearranged σ (unshuffled area m) = s ↔ f ∘ σ = g := by
    intro σ
    rw [rearranged_eq hl, ← hg]
    exact List.ofFn_inj
  have hfb : ∀ σ : Equiv.Perm (Fin area), f ∘ σ = f ↔ fb ∘ σ = fb := by
    intro σ
    have hv : ∀ i, f i = if area - m ≤ i.val then -1 else 0 := fun i => unshuffled_mine hm i
    rw [funext_iff, funext_iff]
    refine forall_congr' fun i => ?_
    simp only [Function.comp, hv, fb, decide_eq_decide]
    by_cases h1 : area - m ≤ (σ i).val <;> by_cases h2 : area - m ≤ i.val <;> simp [h1, h2]
  obtain ⟨σ₀, h₀⟩ := exists_rearrange (F := f) (G := g) (by rw [hf, hg]; exact hs.symm)
  have hstab := DomMulAct.stabilizer_card fb
  rw [Fintype.prod_bool] at hstab
  have ht : Fintype.card {a // fb a = true} = m := by
    rw [Fintype.card_subtype]
    have : (Finset.univ.filter fun a : Fin area => fb a = true).card + (Finset.univ.filter fun a : Fin area => a.val < area - m).card = area := by
      have := Finset.card_filter_add_card_filter_not (s := (Finset.univ : Finset (Fin area))) (fun a => fb a = true)
      rw [Finset.card_univ, Fintype.card_fin] at this
      convert this using 4
      simp only [fb, decide_eq_true_eq, Nat.not_le]
    have h2 : (Finset.univ.filter fun a : Fin area => a.val < area - m).card = area - m := by
      rw [Fin.card_filter_val_lt]
      omega
    omega
  have hfl : Fintype.card {a // fb a = false} = area - m := by
    have := Fintype.card_subtype_compl fun a => fb a = true
    rw [ht, Fintype.card_fin] at this
    rw [← this]
    exact Fintype.card_congr (Equiv.subtypeEquivRight fun a => by simp)
  rw [ht, hfl] at hstab
  rw [← hstab, ← Fintype.card_subtype]
  refine Fintype.card_congr ?_
  refine ⟨fun σ => ⟨σ.1 * σ₀⁻¹, ?_⟩, fun τ => ⟨τ.1 * σ₀, ?_⟩, fun σ => ?_, fun τ => ?_⟩
  · rw [← hfb]
    have := (key _).mp σ.2
    funext i
    show f (σ.1 (σ₀⁻¹ i)) = f i
    have e1 := congrFun this (σ₀⁻¹ i)
    have e2 := congrFun h₀ (σ₀⁻¹ i)
    simp only [Function.comp] at e1 e2
    rw [e1, ← e2]
    simp
  · rw [key]
    have := (hfb _).mpr τ.2
    funext i
    show f (τ.1 (σ₀ i)) = g i
    have e1 := congrFun this (σ₀ i)
    simp only [Function.comp] at e1
    rw [e1]
    exact congrFun h₀ i
  · simp
  · simp

/-- the shuffles that leave one board -/
theorem fair_deal {row col area m : Nat} {keep : Nat → Bool} (hk : ((List.range (row * col)).filter keep).length = area)
    (hrow : 0 < row) (hm : m ≤ area) {b : Board} (hb : MineBoard b row col m)
    (hav : ∀ i, i < row * col → posOf row i ∈ mines b.view → keep i = true) :
    (Finset.univ.filter fun σ : Equiv.Perm (Fin area) =>
      (dealtPos row col keep (rearranged σ (unshuffled area m))).foldl (placeMine row col) (Board.build row col fun _ _ => 0) = b).card =
      m ! * (area - m)! := by
  have hM : mines b.view ⊆ grid row col := by
    intro p hp
    rw [mines, Finset.mem_filter] at hp
    have := hp.1
    rw [vcells] at this
    simp only [Board.view, hb.rect.row_eq, hb.rect.col_eq hrow] at this
    exact this
  obtain ⟨s, hsp, hset⟩ := dealt_surj (row := row) (col := col) (keep := keep) hk hM hav hb.count
  rw [← count_arrangement hm hsp]
  congr 1
  refine Finset.filter_congr fun σ _ => ?_
  have hsub : ∀ s, (dealtPos row col keep s).toFinset ⊆ grid row col := by
    intro s p hp
    rw [List.mem_toFinset] at hp
    obtain ⟨i, hi, _, _, rfl⟩ := mem_dealtPos.mp hp
    exact posOf_mem hi
  have hdeal := fun s => dealt_layout row col keep s
  constructor
  · intro h
    have h1 := (hdeal (rearranged σ (unshuffled area m))).mines hrow (hsub _)
    rw [h, ← hset] at h1
    exact (dealt_inj hk hm hsp (rearranged_perm σ _) h1).symm
  · intro h
    rw [h]
    have h1 := hdeal s
    rw [hset] at h1
    have h2 : IsLayout row col b (mines b.view) := by
      refine ⟨hb.rect, fun q hq => ?_⟩
      have hv : vcells b.view = grid row col := by
        simp only [vcells, Board.view, hb.rect.row_eq, hb.rect.col_eq hrow]
      by_cases h : q ∈ mines b.view
      · rw [if_pos h]
        rw [mines, Finset.mem_filter] at h
        exact h.2
      · rw [if_neg h]
        refine hb.numbered q (by rw [hv]; exact hq) fun h' => h ?_
        rw [mines, Finset.mem_filter, hv]
        exact ⟨hq, h'⟩
    exact rect_ext h1.rect h2.rect fun q hq => by rw [h1.cell q hq, h2.cell q hq]

/-- values with equally many arguments can be exchanged -/
theorem fiber_swap {A B : Type} [Fintype A] [DecidableEq B] (f : A → B) (x y : B)
    (h : (Finset.univ.filter fun a => f a = x).card = (Finset.univ.filter fun a => f a = y).card) :
    ∃ π : A ≃ A, ∀ a, f (π a) = Equiv.swap x y (f a) := by
  have hc : ∀ c, Fintype.card {a // Equiv.swap x y (f a) = c} = Fintype.card {a // f a = c} := by
    intro c
    rw [Fintype.card_subtype, Fintype.card_subtype]
    have e : (Finset.univ.filter fun a => Equiv.swap x y (f a) = c) = Finset.univ.filter fun a => f a = Equiv.swap x y c := by
      refine Finset.filter_congr fun a _ => ?_
      constructor
      · rintro rfl
        rw [Equiv.swap_apply_self]
      · intro h
        rw [h, Equiv.swap_apply_self]
    rw [e]
    by_cases h1 : c = x
    · subst h1
      rw [Equiv.swap_apply_left]
      exact h.symm
    · by_cases h2 : c = y
      · subst h2
        rw [Equiv.swap_apply_right]
        exact h
      · rw [Equiv.swap_apply_of_ne_of_ne h1 h2]
  refine ⟨Equiv.ofFiberEquiv fun c => (Fintype.card_eq.mp (hc c)).some, fun a => ?_⟩
  exact Equiv.ofFiberEquiv_map _ a

end Ms
