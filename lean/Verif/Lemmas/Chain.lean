import Verif.Lemmas.Twin

/-! The chain direct, minus, enumeration on a system of equations. -/

namespace Ms
open Spec

variable {r c : Nat} {g g' : Board} {S S' : Sys} {n i : List Pos}

theorem solves_congr {σ τ : Pos → Bool} (h : ∀ p ∈ sysCells S, σ p = τ p) : Solves σ S ↔ Solves τ S := by
  unfold Solves
  refine forall₂_congr fun B hB => solvesB_congr fun p hp => h p ?_
  unfold sysCells
  exact List.mem_flatMap.mpr ⟨B, hB, hp⟩

/-- What is left to find is the same before and after a stage. -/
theorem Stage.forced (h : Stage r c S S' g g' n i) (hn : (sysCells S).Nodup) (hsat : ∃ σ, Solves σ S) {p : Pos}
    (hp : p ∈ sysCells S') (b : Bool) : (∀ σ, Solves σ S' → σ p = b) ↔ ∀ σ, Solves σ S → σ p = b := by
  constructor
  · intro hf σ hσ
    exact hf σ ((h.equiv σ).mp hσ).1
  · intro hf σ hσ
    obtain ⟨τ, hτ⟩ := hsat
    have hd := h.perm.nodup_iff.mp hn
    have hd' := (List.nodup_append.mp hd).2.2
    let ρ : Pos → Bool := fun q => if q ∈ n ++ i then τ q else σ q
    have h1 : ∀ q ∈ sysCells S', ρ q = σ q := by
      intro q hq
      have : q ∉ n ++ i := fun hc => hd' q hc q hq rfl
      simp only [ρ, if_neg this]
    have h2 : Solves ρ S := by
      refine (h.equiv ρ).mpr ⟨(solves_congr h1).mpr hσ, fun q hq => ?_, fun q hq => ?_⟩
      · have : q ∈ n ++ i := by simp [hq]
        simp only [ρ, if_pos this]
        exact ((h.equiv τ).mp hτ).2.1 q hq
      · have : q ∈ n ++ i := by simp [hq]
        simp only [ρ, if_pos this]
        exact ((h.equiv τ).mp hτ).2.2 q hq
    rw [← h1 p hp]
    exact hf ρ h2

/-- `solve_enumerate` on a system left by the other solvers. -/
theorem enum_stage (hs : SysOK S) (hsat : ∃ σ, Solves σ S) :
    ∃ n i, solveEnumerate S = some (n, i) ∧
      (∀ p ∈ n, p ∈ sysCells S ∧ ∀ σ, Solves σ S → σ p = false) ∧
      (∀ p ∈ i, p ∈ sysCells S ∧ ∀ σ, Solves σ S → σ p = true) ∧
      ((∀ B ∈ S, B.x.length ≤ ENUM_LIMIT) →
        (∀ p, p ∈ n ↔ p ∈ sysCells S ∧ ∀ σ, Solves σ S → σ p = false) ∧
        (∀ p, p ∈ i ↔ p ∈ sysCells S ∧ (∀ B ∈ S, ¬ HasTwin B p) ∧ ∀ σ, Solves σ S → σ p = true)) := by
  by_cases hl : ∀ B ∈ S, B.x.length ≤ ENUM_LIMIT
  · obtain ⟨n, i, h1, h2, h3⟩ := solveEnumerate_spec (hs.enum hsat) hl hs.good.nodup hsat
    exact ⟨n, i, h1, fun p hp => (h2 p).mp hp, fun p hp => ⟨((h3 p).mp hp).1, ((h3 p).mp hp).2.2⟩, fun _ => ⟨h2, h3⟩⟩
  · refine ⟨[], [], ?_, by simp, by simp, fun h => absurd h hl⟩
    unfold solveEnumerate
    rw [if_pos]
    push Not at hl
    obtain ⟨B, hB, h⟩ := hl
    exact List.any_eq_true.mpr ⟨B, hB, by simpa using h⟩

end Ms
