import Verif.Lemmas.Border
import Mathlib.Data.List.Flatten

namespace Ms
open Spec

variable {r c : Nat} {g : Board} {S T : Sys} {Ts : List Sys}

/-- A group of blocks of the system `S` of a board. -/
structure GroupOK (r c : Nat) (S T : Sys) : Prop where
  good : GoodSys T
  weight : ∀ B ∈ T, RowSum 8 B
  board : Properties.OnBoard T r c
  sub : SubBlocks S T

theorem Groups.group (hs : SysShape g S) (hb : Properties.OnBoard S r c) (hG : Groups S Ts) (hT : T ∈ Ts) :
    GroupOK r c S T := by
  have hnd : (sysCells Ts.flatten).Nodup := hG.perm.nodup_iff.mpr hs.good.nodup
  have hsub : ∀ p ∈ sysCells T, p ∈ sysCells S := by
    intro p hp
    obtain ⟨B, hB, hp⟩ := mem_sysCells.mp hp
    exact hG.perm.mem_iff.mp (mem_sysCells.mpr ⟨B, List.mem_flatten.mpr ⟨T, hT, hB⟩, hp⟩)
  refine ⟨⟨fun B hB => ?_, ?_, fun B hB => ?_⟩, fun B hB => ?_, fun p hp => hb p (hsub p hp), hG.sub T hT⟩
  · rcases hG.sub T hT B hB with h | rfl
    · exact hs.good.rect B h
    · intro r hr; simp at hr
  · have hsl : List.Sublist (sysCells T) (sysCells Ts.flatten) := by
      unfold sysCells
      exact List.Sublist.flatMap (List.sublist_flatten_of_mem hT) _
    exact hsl.nodup hnd
  · rcases hG.sub T hT B hB with h | rfl
    · exact hs.good.covered B h
    · intro k hk; simp at hk
  · rcases hG.sub T hT B hB with h | rfl
    · exact hs.weight B h
    · intro r hr; simp at hr

theorem GroupOK.solves (h : GroupOK r c S T) {σ : Pos → Bool} (hσ : Solves σ S) : Solves σ T := by
  intro B hB
  rcases h.sub B hB with h1 | rfl
  · exact hσ B h1
  · intro r hr; simp at hr

theorem GroupOK.mem (h : GroupOK r c S T) {p : Pos} (hp : p ∈ sysCells T) : ∃ B ∈ T, B ∈ S ∧ p ∈ B.x := by
  obtain ⟨B, hB, hp⟩ := mem_sysCells.mp hp
  rcases h.sub B hB with h1 | rfl
  · exact ⟨B, hB, h1, hp⟩
  · simp at hp

/-- Certainty in the group is certainty in the whole system. -/
theorem GroupOK.forced (h : GroupOK r c S T) (hn : (sysCells S).Nodup) (hsat : ∃ σ, Solves σ S) {p : Pos}
    (hp : p ∈ sysCells T) (b : Bool) : (∀ σ, Solves σ T → σ p = b) ↔ ∀ σ, Solves σ S → σ p = b := by
  obtain ⟨B, hB, hBS, hpB⟩ := h.mem hp
  rw [← forced_iff h.good.nodup (hsat.imp fun σ hσ => h.solves hσ) hB hpB b, forced_iff hn hsat hBS hpB b]

/-- The group of a cell contains everything linked to it. -/
theorem GroupOK.linked (h : GroupOK r c S T) (hn : (sysCells S).Nodup)
    (hl : ∀ n, IsNumber g n → (∃ q, IsCovered g q ∧ Near n q) → ∃ B ∈ S, ∀ q, IsCovered g q → Near n q → q ∈ B.x)
    {p q : Pos} (hpc : IsCovered g p) (hp : p ∈ sysCells T) (hq : SharesNumbers g p q) : q ∈ sysCells T := by
  have key : q ∈ sysCells T ∧ IsCovered g q := by
    induction hq with
    | refl => exact ⟨hp, hpc⟩
    | tail h1 h2 ih =>
      rename_i a b
      obtain ⟨hb, n, hnum, hna, hnb⟩ := h2
      refine ⟨?_, hb⟩
      obtain ⟨B, hB, hBS, haB⟩ := h.mem ih.1
      obtain ⟨B', hB', hall⟩ := hl n hnum ⟨a, ih.2, hna⟩
      have hBB : B = B' := by
        by_contra hne
        have ha' := hall a ih.2 hna
        unfold sysCells at hn
        rw [List.nodup_flatMap] at hn
        have : Std.Symm (Function.onFun List.Disjoint fun B : Block => B.x) := ⟨fun _ _ h => List.Disjoint.symm h⟩
        have hd := hn.2.forall hBS hB' hne
        exact hd haB ha'
      subst hBB
      exact mem_sysCells.mpr ⟨B, hB, hall b hb hnb⟩
  exact key.1

/-- The chain of the three solvers on a group. -/
theorem group_chain (hg : Rect g r c) (hT : GroupOK r c S T) (hsat : ∃ σ, Solves σ S) :
    ∃ o n i o2 n2 i2 n3 i3, solveDirect T g = some o ∧ o.res = .ok (n, i) ∧ Stage r c T o.sys g o.board n i ∧
      solveMinus o.sys o.board = some o2 ∧ o2.res = .ok (n2, i2) ∧
      Stage r c T o2.sys g o2.board (n ++ n2) (i ++ i2) ∧ solveEnumerate o2.sys = some (n3, i3) ∧
      (∃ σ, Solves σ o2.sys) ∧
      (∀ p ∈ n3, p ∈ sysCells o2.sys ∧ ∀ σ, Solves σ o2.sys → σ p = false) ∧
      (∀ p ∈ i3, p ∈ sysCells o2.sys ∧ ∀ σ, Solves σ o2.sys → σ p = true) ∧
      ((∀ B ∈ o2.sys, B.x.length ≤ ENUM_LIMIT) →
        (∀ p, p ∈ n3 ↔ p ∈ sysCells o2.sys ∧ ∀ σ, Solves σ o2.sys → σ p = false) ∧
        (∀ p, p ∈ i3 ↔ p ∈ sysCells o2.sys ∧ (∀ B ∈ o2.sys, ¬ HasTwin B p) ∧ ∀ σ, Solves σ o2.sys → σ p = true)) := by
  obtain ⟨σ, hσ⟩ := hsat
  have hσT := hT.solves hσ
  obtain ⟨o, n, i, h1, h2, h3⟩ := stage_direct' hT.good hT.weight hg hT.board ⟨σ, hσT⟩
  have hσ2 := ((h3.equiv σ).mp hσT).1
  obtain ⟨o2, n2, i2, h4, h5, h6⟩ := stage_minus h3.ok h3.rect (h3.onBoard hT.board) ⟨σ, hσ2⟩
  have h7 := h3.trans hT.good.nodup h6
  have hσ3 : Solves σ o2.sys := ((h6.equiv σ).mp hσ2).1
  obtain ⟨n3, i3, e1, e2, e3, e4⟩ := enum_stage h7.ok ⟨σ, hσ3⟩
  exact ⟨o, n, i, o2, n2, i2, n3, i3, h1, h2, h3, h4, h5, h7, e1, ⟨σ, hσ3⟩, e2, e3, e4⟩

end Ms
