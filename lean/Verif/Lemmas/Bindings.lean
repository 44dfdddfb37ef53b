import Verif.Model.Bindings
import Verif.Lemmas.GameBoard

/-! # The probability engine on a board marked by `mark_board` -/

namespace Ms
open Spec Properties

section
variable {r c : Nat} {u h : Board} {bn bi en : List Pos} (M : Marking r c u h bn bi en) (hu : Rect u r c) (hr : 0 < r)
  (hre : ∀ p, IsNumber u p → InReach u p) (hc : ∃ σ, Consistent u σ)
include M hu hr

theorem Marking.marked_card : (Spec.markedSet h).card = (Spec.markedSet u).card + bi.length := by
  obtain ⟨h1, h2⟩ := M.markedSet_all hu hr
  rw [h1, Finset.card_union_of_disjoint h2, List.toFinset_card_of_nodup (List.nodup_append.mp M.nodup).2.1]

theorem Marking.shown (hv : ∀ p ∈ grid u.row u.col, 0 ≤ u.get p.1 p.2) : ∀ p ∈ grid h.row h.col, 0 ≤ h.get p.1 p.2 := by
  obtain ⟨d1, d2, d3, d4⟩ := M.dims hu hr
  intro p hp
  rw [d3, d4] at hp
  have hp' := mem_grid.mp hp
  rw [M.get p hp'.1 hp'.2]
  split
  · omega
  · split
    · omega
    · exact hv p (by rw [d1, d2]; exact hp)

include hc in
theorem Marking.explained : ∃ σ, Consistent h σ := by
  obtain ⟨σ, hσ⟩ := hc
  exact ⟨σ, (M.consistent hu hr (fun q hq => (M.basicIs q hq).2 σ hσ) (fun q hq => (M.basicNot q hq).2 σ hσ)
    fun _ _ => rfl).mp hσ⟩

omit hu in
theorem Marking.ne_nil : h ≠ [] := by
  intro hh
  have := M.rect.len
  rw [hh] at this
  simp at this
  omega

include hre hc in
theorem Marking.mines_le {k : Nat} (hk : (Spec.layouts u k).Nonempty) : bi.length ≤ k := by
  obtain ⟨A, hA⟩ := hk
  rw [layouts_mem hre hc] at hA
  have hsub : bi.toFinset ⊆ A := by
    intro q hq
    have := (M.basicIs q (List.mem_toFinset.mp hq)).2 _ hA.2.2
    simpa using this
  have := Finset.card_le_card hsub
  rw [List.toFinset_card_of_nodup (List.nodup_append.mp M.nodup).2.1, hA.2.1] at this
  exact this

include hre hc in
theorem Marking.layouts_nonempty (m : Nat) : (Spec.layouts u (m + bi.length)).Nonempty ↔ (Spec.layouts h m).Nonempty := by
  obtain ⟨l1, l2⟩ := M.layouts hu hr hre hc m
  exact ⟨fun ⟨A, hA⟩ => ⟨_, (l1 A hA).1⟩, fun ⟨B, hB⟩ => ⟨_, (l2 B hB).1⟩⟩

include hre hc in
theorem Marking.least {lo : Nat} (hl : IsLeast {k | (Spec.layouts u k).Nonempty} lo) :
    bi.length ≤ lo ∧ IsLeast {k | (Spec.layouts h k).Nonempty} (lo - bi.length) := by
  have h1 := M.mines_le hu hr hre hc hl.1
  refine ⟨h1, ?_, fun k hk => ?_⟩
  · show (Spec.layouts h _).Nonempty
    rw [← M.layouts_nonempty hu hr hre hc, Nat.sub_add_cancel h1]
    exact hl.1
  · have := hl.2 ((M.layouts_nonempty hu hr hre hc k).mpr hk)
    omega

include hre hc in
theorem Marking.greatest {hi : Nat} (hl : IsGreatest {k | (Spec.layouts u k).Nonempty} hi) :
    bi.length ≤ hi ∧ IsGreatest {k | (Spec.layouts h k).Nonempty} (hi - bi.length) := by
  have h1 := M.mines_le hu hr hre hc hl.1
  refine ⟨h1, ?_, fun k hk => ?_⟩
  · show (Spec.layouts h _).Nonempty
    rw [← M.layouts_nonempty hu hr hre hc, Nat.sub_add_cancel h1]
    exact hl.1
  · have := hl.2 ((M.layouts_nonempty hu hr hre hc k).mpr hk)
    omega

include hre hc in
open Classical in
theorem Marking.chance (m : Nat) (q : Pos) (hq : q ∉ bi) : Spec.chance h m q = Spec.chance u (m + bi.length) q := by
  have hcf := M.card_filter hu hr hre hc m
  have hall : (Spec.layouts u (m + bi.length)).card = (Spec.layouts h m).card := by
    have := hcf (fun _ => True) (fun _ => True) fun _ _ => Iff.rfl
    convert this using 2 <;> (ext A; simp)
  have hone : ((Spec.layouts u (m + bi.length)).filter fun A => q ∈ A).card = ((Spec.layouts h m).filter fun A => q ∈ A).card := by
    have := hcf (fun A => q ∈ A) (fun A => q ∈ A) fun B _ => by simp [hq]
    convert this using 2 <;> (ext A; simp)
  unfold Spec.chance
  rw [hall]
  split
  · rfl
  · congr 2
    refine congrArg _ ?_
    convert hone.symm using 2 <;> (ext A; simp)

include hre in
/-- A covered cell of the marked board is next to a number within reach iff it is so on the original board. -/
theorem Marking.fringe {q : Pos} (hq : IsCovered h q) : Fringe h q ↔ Frontier u q := by
  have hqu := ((M.covered hu hr q).mp hq).1
  constructor
  · rintro ⟨-, p, h1, -, h3⟩
    exact ⟨hqu, p, (M.number hu hr p).mp h1, h3⟩
  · rintro ⟨-, p, h1, h3⟩
    exact ⟨hq, p, (M.number hu hr p).mpr h1, M.reach hu hr (hre p h1), h3⟩

include hre in
/-- The covered cells away from numbers are the same on both boards. -/
theorem Marking.away (q : Pos) : IsCovered h q ∧ ¬ Fringe h q ↔ IsCovered u q ∧ ¬ Fringe u q := by
  have hfu : ∀ q, Fringe u q ↔ Frontier u q := fun q =>
    ⟨fun ⟨h1, p, h2, _, h3⟩ => ⟨h1, p, h2, h3⟩, fun ⟨h1, p, h2, h3⟩ => ⟨h1, p, h2, hre p h2, h3⟩⟩
  constructor
  · rintro ⟨h1, h2⟩
    refine ⟨((M.covered hu hr q).mp h1).1, ?_⟩
    rw [hfu, ← M.fringe hu hr hre h1]
    exact h2
  · rintro ⟨h1, h2⟩
    rw [hfu] at h2
    have h3 : IsCovered h q :=
      (M.covered hu hr q).mpr ⟨h1, fun hb => h2 (M.basicNot q hb).1, fun hb => h2 (M.basicIs q hb).1⟩
    exact ⟨h3, by rw [M.fringe hu hr hre h3]; exact h2⟩

include hre hc in
/-- The number of mines the engine takes the marked board to have. -/
theorem Marking.minesLeft {minenum : ℚ} {lo hi m : Nat} (hl : IsLeast {k | (Spec.layouts u k).Nonempty} lo)
    (hg : IsGreatest {k | (Spec.layouts u k).Nonempty} hi) (hm : MinesLeft u minenum lo hi m) (hlo : lo ≤ m)
    (hs : minenum < 1 → lo + (Spec.markedSet u).card ≤ ⌊((u.row * u.col : Nat) : ℚ) * minenum⌋.toNat) :
    MinesLeft h minenum (lo - bi.length) (hi - bi.length) (m - bi.length) := by
  obtain ⟨d1, d2, d3, d4⟩ := M.dims hu hr
  have h1 := (M.least hu hr hre hc hl).1
  have h2 := (M.greatest hu hr hre hc hg).1
  have h3 := M.marked_card hu hr
  have h4 : lo ≤ hi := hl.2 hg.1
  unfold MinesLeft at hm ⊢
  by_cases h5 : 1 ≤ minenum
  · rw [if_pos h5] at hm ⊢
    omega
  · rw [if_neg h5] at hm ⊢
    have h6 := hs (not_le.mp h5)
    rw [d1, d2] at hm h6
    rw [d3, d4]
    generalize ⌊((r * c : Nat) : ℚ) * minenum⌋.toNat = t at *
    omega

end

end Ms
