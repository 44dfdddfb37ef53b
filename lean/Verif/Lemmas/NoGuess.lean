import Verif.SpecNoGuess
import Verif.Lemmas.Metrics

namespace Ms
open Spec

variable {r c : Nat} {b : Board} {s : Pos}

theorem explains_mono {O O' : Finset Pos} {σ : Pos → Bool} (h : Explains r c b O' σ) (hs : O ⊆ O') :
    Explains r c b O σ := fun p hp => h p (hs hp)

theorem openable_start {O : Finset Pos} (h : Openable r c b s O) : s ∈ O := by
  induction h with
  | start => simp
  | step _ _ _ ih => exact Finset.mem_insert_of_mem ih

theorem openable_union {O O' : Finset Pos} (h : Openable r c b s O) (h' : Openable r c b s O') :
    Openable r c b s (O ∪ O') := by
  induction h' with
  | start =>
    rw [Finset.union_eq_left.mpr (by simpa using openable_start h)]; exact h
  | @step O'' p h1 hp hf ih =>
    rw [Finset.union_insert]
    exact .step ih hp fun σ hσ => hf σ (explains_mono hσ Finset.subset_union_right)

/-- the true layout explains every set of safe cells -/
theorem layout_explains {O : Finset Pos} (h : ∀ p ∈ O, layout b p = false) : Explains r c b O (layout b) :=
  fun p hp => ⟨h p hp, rfl⟩

theorem openable_safe {O : Finset Pos} (hs : layout b s = false) (h : Openable r c b s O) :
    ∀ p ∈ O, layout b p = false := by
  induction h with
  | start => simpa using hs
  | step _ _ hf ih =>
    intro q hq
    rcases Finset.mem_insert.mp hq with rfl | hq
    · exact hf _ (layout_explains ih)
    · exact ih q hq

theorem openable_grid {O : Finset Pos} (hs : s ∈ grid r c) (h : Openable r c b s O) : O ⊆ grid r c := by
  induction h with
  | start => simpa using hs
  | step _ hp _ ih => exact Finset.insert_subset hp ih

/-- add a family of cells, each of which lies in an openable set inside the target -/
theorem openable_iUnion {O T : Finset Pos} (h : Openable r c b s O) (hT : ∀ q ∈ T, ∃ Oq, Openable r c b s Oq ∧
    q ∈ Oq ∧ Oq ⊆ O ∪ T) : Openable r c b s (O ∪ T) := by
  have key : ∀ T' ⊆ T, ∃ O', Openable r c b s O' ∧ O ⊆ O' ∧ T' ⊆ O' ∧ O' ⊆ O ∪ T := by
    intro T'
    induction T' using Finset.induction_on with
    | empty => intro _; exact ⟨O, h, Finset.Subset.refl _, by simp, Finset.subset_union_left⟩
    | insert q T' _ ih =>
      intro hs
      obtain ⟨O', o1, o2, o3, o4⟩ := ih fun x hx => hs (Finset.mem_insert_of_mem hx)
      obtain ⟨Oq, q1, q2, q3⟩ := hT q (hs (Finset.mem_insert_self _ _))
      refine ⟨O' ∪ Oq, openable_union o1 q1, o2.trans Finset.subset_union_left, ?_, Finset.union_subset o4 q3⟩
      exact Finset.insert_subset (Finset.mem_union_right _ q2) (o3.trans Finset.subset_union_left)
  obtain ⟨O', o1, o2, o3, o4⟩ := key T (Finset.Subset.refl _)
  rwa [Finset.Subset.antisymm o4 (Finset.union_subset o2 o3)] at o1

/-- A set from which nothing more can be opened contains everything that can be opened. -/
theorem openable_le {O : Finset Pos} (hs : s ∈ O)
    (hmax : ∀ p ∈ grid r c, (∀ σ, Explains r c b O σ → σ p = false) → p ∈ O) {O' : Finset Pos}
    (h : Openable r c b s O') : O' ⊆ O := by
  induction h with
  | start => simpa using hs
  | step _ hp hf ih => exact Finset.insert_subset (hmax _ hp fun σ hσ => hf σ (explains_mono hσ ih)) ih

/-! ## forks -/

/-- A second layout that differs from the board only on cells `D`, not all of them mines, none of them the start,
and is indistinguishable from all safe cells outside `D`. -/
theorem fork_noGuess {D : Finset Pos} {τ : Pos → Bool} (hs : layout b s = false) (hsg : s ∈ grid r c)
    (hsD : s ∉ D) (hD : ∃ p ∈ D, p ∈ grid r c ∧ layout b p = false)
    (hτD : ∀ p ∈ D, layout b p = false → τ p = true) (hτ : ∀ p, p ∉ D → τ p = layout b p)
    (hc : ∀ p ∈ grid r c, p ∉ D → layout b p = false → layoutNear r c τ p = layoutNear r c (layout b) p) :
    ¬ NoGuess r c b s := by
  rintro ⟨O, hO, hall⟩
  have key : ∀ O, Openable r c b s O → ∀ p ∈ O, p ∉ D := by
    intro O hO
    induction hO with
    | start => simpa using hsD
    | @step O p h1 hp hf ih =>
      intro q hq
      rcases Finset.mem_insert.mp hq with rfl | hq
      · intro hqD
        have hsafe := hf _ (layout_explains (openable_safe hs h1))
        have := hf τ fun a ha => ?_
        · rw [hτD q hqD hsafe] at this; simp at this
        · have ha' := openable_safe hs h1 a ha
          exact ⟨by rw [hτ a (ih a ha), ha'], hc a (openable_grid hsg h1 ha) (ih a ha) ha'⟩
      · exact ih q hq
  obtain ⟨p, hpD, hpg, hpl⟩ := hD
  exact key O hO p (hall p hpg hpl) hpD

end Ms
