import Verif.Lemmas.Mark
import Mathlib.Algebra.BigOperators.Group.Finset.Basic
import Mathlib.Logic.Equiv.Basic

namespace Ms
open Spec

theorem sum_map_range (f : Nat → Int) (n : Nat) : ((List.range n).map f).sum = (Finset.range n).sum f := by
  induction n with
  | zero => rfl
  | succ n ih => rw [List.range_succ, List.map_append, List.sum_append, ih, Finset.sum_range_succ]; simp

/-- Exchanging two cells that occur in the same equations. -/
theorem solves_swap {B : Block} (h01 : Block01 B) (hx : B.x.Nodup) {i j : Nat} (hi : i < B.x.length) (hj : j < B.x.length)
    (hcol : ∀ r ∈ B.rows, r.1.getD i 0 = r.1.getD j 0) {σ : Pos → Bool} (hσ : SolvesB σ B) :
    SolvesB (fun p => σ (Equiv.swap (B.x.getD i (0, 0)) (B.x.getD j (0, 0)) p)) B := by
  intro r hr
  rw [← hσ r hr, lhs_range _ _ _ (h01 r hr).1, lhs_range _ _ _ (h01 r hr).1, sum_map_range, sum_map_range]
  refine Finset.sum_equiv (Equiv.swap i j) ?_ ?_
  · intro k
    simp only [Finset.mem_range, Equiv.swap_apply_def]
    split_ifs with h1 h2
    · subst h1; simp [hi, hj]
    · subst h2; simp [hi, hj]
    · rfl
  · intro k hk
    have hk := Finset.mem_range.mp hk
    have hinj : ∀ {a b : Nat}, a < B.x.length → b < B.x.length → B.x.getD a (0, 0) = B.x.getD b (0, 0) → a = b := by
      intro a b ha hb he
      rw [List.getD_eq_getElem?_getD, List.getD_eq_getElem?_getD, List.getElem?_eq_getElem ha,
        List.getElem?_eq_getElem hb] at he
      exact (hx.getElem_inj_iff).mp he
    have e1 : Equiv.swap (B.x.getD i (0, 0)) (B.x.getD j (0, 0)) (B.x.getD k (0, 0)) =
        B.x.getD (Equiv.swap i j k) (0, 0) := by
      by_cases h1 : k = i
      · subst h1; simp only [Equiv.swap_apply_left]
      · by_cases h2 : k = j
        · subst h2; simp only [Equiv.swap_apply_right]
        · rw [Equiv.swap_apply_of_ne_of_ne h1 h2, Equiv.swap_apply_of_ne_of_ne]
          · exact fun e => h1 (hinj hk hi e)
          · exact fun e => h2 (hinj hk hj e)
    have e2 : r.1.getD (Equiv.swap i j k) 0 = r.1.getD k 0 := by
      by_cases h1 : k = i
      · subst h1; rw [Equiv.swap_apply_left]; exact (hcol r hr).symm
      · by_cases h2 : k = j
        · subst h2; rw [Equiv.swap_apply_right]; exact hcol r hr
        · rw [Equiv.swap_apply_of_ne_of_ne h1 h2]
    rw [e1, e2]

/-- A twin of a forced mine is a forced mine and has a twin. -/
theorem twin_forced {B : Block} (h01 : Block01 B) (hx : B.x.Nodup) {p : Pos} (ht : HasTwin B p)
    (hf : ∀ σ, SolvesB σ B → σ p = true) :
    ∃ q, q ∈ B.x ∧ q ≠ p ∧ HasTwin B q ∧ ∀ σ, SolvesB σ B → σ q = true := by
  obtain ⟨i, j, hi, hj, hij, rfl, hcol⟩ := ht
  refine ⟨B.x.getD j (0, 0), getD_mem_of_lt _ hj, ?_, ⟨j, i, hj, hi, hij.symm, rfl, fun r hr => (hcol r hr).symm⟩, ?_⟩
  · intro he
    rw [List.getD_eq_getElem?_getD, List.getD_eq_getElem?_getD, List.getElem?_eq_getElem hj,
      List.getElem?_eq_getElem hi] at he
    exact hij ((hx.getElem_inj_iff).mp he).symm
  · intro σ hσ
    have := hf _ (solves_swap h01 hx hi hj hcol hσ)
    simpa using this

end Ms
