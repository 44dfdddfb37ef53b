import Verif.Lemmas.RoundsBoard
import Verif.Lemmas.GuessChain

/-! The rounds of the solvers on one group of blocks of the system of a board. -/

namespace Ms
open Spec

variable {E : Set (Set Pos)} {σ : Pos → Bool} {K K' X : Set Pos} {S T : Sys} {r c : Nat}

/-- the equations within `X` -/
def within (E : Set (Set Pos)) (X : Set Pos) : Set (Set Pos) := {e | e ∈ E ∧ e ⊆ X}

/-- `X` contains every equation that meets it -/
def ClosedIn (E : Set (Set Pos)) (X : Set Pos) : Prop := ∀ e ∈ E, ∀ t ∈ e, t ∈ X → e ⊆ X

theorem single_within (hX : ClosedIn E X) (hK : ∀ p ∈ X, p ∈ K ↔ p ∈ K') (v : Bool) (p : Pos) (hp : p ∈ X) :
    p ∈ single σ E v K ↔ p ∈ single σ (within E X) v K' := by
  constructor
  · rintro (h | ⟨e, he, h1, h2⟩)
    · exact .inl ((hK p hp).mp h)
    · have hs := hX e he p h1 hp
      exact .inr ⟨e, ⟨he, hs⟩, h1, fun t ht => (h2 t ht).imp (hK t (hs ht)).mp id⟩
  · rintro (h | ⟨e, ⟨he, hs⟩, h1, h2⟩)
    · exact .inl ((hK p hp).mpr h)
    · exact .inr ⟨e, he, h1, fun t ht => (h2 t ht).imp (hK t (hs ht)).mpr id⟩

theorem paired_within (hX : ClosedIn E X) (hK : ∀ p ∈ X, p ∈ K ↔ p ∈ K') (p : Pos) (hp : p ∈ X) :
    p ∈ paired σ E K ↔ p ∈ paired σ (within E X) K' := by
  constructor
  · rintro (h | ⟨e, he, e', he', ⟨u, u1, u2, u3⟩, h1, h2, hx⟩)
    · exact .inl ((hK p hp).mp h)
    · have hs : e ⊆ X ∧ e' ⊆ X := by
        rcases hx with ⟨x, -⟩ | ⟨x, -⟩
        · have a := hX e he p x hp
          exact ⟨a, hX e' he' u u2 (a u1)⟩
        · have a := hX e' he' p x hp
          exact ⟨hX e he u u1 (a u2), a⟩
      exact .inr ⟨e, ⟨he, hs.1⟩, e', ⟨he', hs.2⟩, ⟨u, u1, u2, fun h => u3 ((hK u (hs.1 u1)).mpr h)⟩,
        fun t ht ht' => (h1 t ht ht').imp (hK t (hs.1 ht)).mp id, fun t ht ht' => (h2 t ht ht').imp (hK t (hs.2 ht)).mp id, hx⟩
  · rintro (h | ⟨e, ⟨he, hs⟩, e', ⟨he', hs'⟩, ⟨u, u1, u2, u3⟩, h1, h2, hx⟩)
    · exact .inl ((hK p hp).mpr h)
    · exact .inr ⟨e, he, e', he', ⟨u, u1, u2, fun h => u3 ((hK u (hs u1)).mp h)⟩,
        fun t ht ht' => (h1 t ht ht').imp (hK t (hs ht)).mpr id, fun t ht ht' => (h2 t ht ht').imp (hK t (hs' ht)).mpr id, hx⟩

theorem singles_within (hX : ClosedIn E X) (hK : ∀ p ∈ X, p ∈ K ↔ p ∈ K') (p : Pos) (hp : p ∈ X) :
    p ∈ singles σ E K ↔ p ∈ singles σ (within E X) K' :=
  single_within hX (fun p hp => single_within hX hK true p hp) false p hp

theorem quick_within (hX : ClosedIn E X) (p : Pos) (hp : p ∈ X) : p ∈ quick σ E ↔ p ∈ quick σ (within E X) :=
  singles_within hX (fun p hp => paired_within hX (fun p hp => singles_within hX (fun _ _ => Iff.rfl) p hp) p hp) p hp

theorem unknowns_within (hX : ClosedIn E X) (hK : ∀ p ∈ X, p ∈ K ↔ p ∈ K') (p : Pos) (hp : p ∈ X) :
    p ∈ unknowns E K ↔ p ∈ unknowns (within E X) K' := by
  constructor
  · rintro ⟨h1, e, he, h2⟩
    exact ⟨fun h => h1 ((hK p hp).mpr h), e, ⟨he, hX e he p h2 hp⟩, h2⟩
  · rintro ⟨h1, e, ⟨he, -⟩, h2⟩
    exact ⟨fun h => h1 ((hK p hp).mp h), e, he, h2⟩

theorem small_within (hX : ClosedIn E X) (hK : ∀ p ∈ X, p ∈ K ↔ p ∈ K') (h : SmallKnots E K) : SmallKnots (within E X) K' := by
  intro l hl hu ht
  have hin : ∀ a ∈ unknowns (within E X) K', a ∈ X := fun a ⟨_, e, ⟨_, hs⟩, h2⟩ => hs h2
  refine h l hl (fun a ha => (unknowns_within hX hK a (hin a (hu a ha))).mpr (hu a ha)) fun a ha b hb => ?_
  have hk := ht a ha b hb
  clear hb
  induction hk with
  | refl => exact .refl
  | tail _ h2 ih =>
    obtain ⟨e, ⟨he, hs⟩, a1, a2, a3, a4⟩ := h2
    exact .tail ih ⟨e, he, a1, a2, fun h => a3 ((hK _ (hs a1)).mp h), fun h => a4 ((hK _ (hs a2)).mp h)⟩

theorem twin_within (hX : ClosedIn E X) (hK : ∀ p ∈ X, p ∈ K ↔ p ∈ K') (p : Pos) (hp : p ∈ X) (hpe : ∃ e ∈ E, p ∈ e) :
    TwinIn E K p ↔ TwinIn (within E X) K' p := by
  obtain ⟨e0, he0, hp0⟩ := hpe
  have hs0 := hX e0 he0 p hp0 hp
  constructor
  · rintro ⟨q, hne, hq, hall⟩
    have hqX : q ∈ X := hs0 ((hall e0 he0).mp hp0)
    exact ⟨q, hne, (unknowns_within hX hK q hqX).mp hq, fun e he => hall e he.1⟩
  · rintro ⟨q, hne, hq, hall⟩
    have hqX : q ∈ X := hs0 ((hall e0 ⟨he0, hs0⟩).mp hp0)
    exact ⟨q, hne, (unknowns_within hX hK q hqX).mpr hq, fun e he =>
      ⟨fun h => (hall e ⟨he, hX e he p h hp⟩).mp h, fun h => (hall e ⟨he, hX e he q h hqX⟩).mpr h⟩⟩

theorem Left.closed (h : Left E σ ∅ S) (hT : GroupOK r c S T) : ClosedIn E {p | p ∈ sysCells T} := by
  intro e he t ht htT
  obtain ⟨B, hB, hBS, htB⟩ := hT.mem htT
  intro s hs
  exact mem_sysCells.mpr ⟨B, hB, ((h.block hBS htB he ht).2.2 s hs).resolve_left (by simp)⟩

theorem Left.group (h : Left E σ ∅ S) (hT : GroupOK r c S T) : Left (within E {p | p ∈ sysCells T}) σ ∅ T := by
  have hcl := h.closed hT
  refine ⟨hT.good.rect, hT.good.covered, hT.solves h.sat, hT.good.nodup, fun p => ⟨fun hp => ?_, ?_⟩, fun B hB row hr => ?_, ?_⟩
  · obtain ⟨B, hB, hBS, hpB⟩ := hT.mem hp
    obtain ⟨-, e, he, hpe⟩ := (h.cells p).mp (mem_sysCells.mpr ⟨B, hBS, hpB⟩)
    exact ⟨by simp, e, ⟨he, hcl e he p hpe hp⟩, hpe⟩
  · rintro ⟨-, e, ⟨-, hs⟩, hpe⟩
    exact hs hpe
  · rcases hT.sub B hB with h1 | rfl
    · obtain ⟨e, he, h2, h3⟩ := h.row B h1 row hr
      exact ⟨e, ⟨he, fun t ht => mem_sysCells.mpr ⟨B, hB, (h3 t ht).resolve_left (by simp)⟩⟩, h2, h3⟩
    · simp at hr
  · rintro e ⟨he, hs⟩ t hte -
    obtain ⟨B, hB, hBS, htB⟩ := hT.mem (hs hte)
    obtain ⟨-, h1, h2⟩ := h.block hBS htB he hte
    exact ⟨B, hB, h1, h2⟩

end Ms
