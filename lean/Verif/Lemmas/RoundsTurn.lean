import Verif.Lemmas.RoundsBoard
import Verif.Lemmas.Turn
import Verif.Properties.Rounds

/-! What the fast solvers find on turned boards. -/

namespace Ms
open Spec Properties

/-- two sets of equations, the layouts that solve them and the known cells, equal up to the maps `σ`, `τ` of the cells `D`, `D'` -/
structure SameEqs (D D' : Set Pos) (σ τ : Pos → Pos) (E E' : Set (Set Pos)) (s s' : Pos → Bool) : Prop where
  there : ∀ p ∈ D, σ p ∈ D' ∧ τ (σ p) = p
  back : ∀ p ∈ D', τ p ∈ D ∧ σ (τ p) = p
  sub : ∀ e ∈ E, e ⊆ D
  sub' : ∀ e ∈ E', e ⊆ D'
  map : ∀ e ∈ E, σ '' e ∈ E'
  map' : ∀ e ∈ E', τ '' e ∈ E
  val : ∀ p ∈ D, s' (σ p) = s p

def SameSet (D : Set Pos) (σ : Pos → Pos) (K K' : Set Pos) : Prop := ∀ p ∈ D, σ p ∈ K' ↔ p ∈ K

namespace SameEqs

variable {D D' : Set Pos} {σ τ : Pos → Pos} {E E' : Set (Set Pos)} {s s' : Pos → Bool} {K K' : Set Pos}

theorem symm (h : SameEqs D D' σ τ E E' s s') : SameEqs D' D τ σ E' E s' s :=
  ⟨h.back, h.there, h.sub', h.sub, h.map', h.map, fun p hp => by
    have := h.val _ (h.back p hp).1
    rw [(h.back p hp).2] at this
    exact this.symm⟩

theorem set_symm (h : SameEqs D D' σ τ E E' s s') (hK : SameSet D σ K K') : SameSet D' τ K' K := fun p hp => by
  have := hK _ (h.back p hp).1
  rw [(h.back p hp).2] at this
  exact this.symm

/-- what holds in one direction holds in both -/
theorem both (h : SameEqs D D' σ τ E E' s s') {X X' : Set Pos} (h1 : ∀ p ∈ D, p ∈ X → σ p ∈ X') (h2 : ∀ p ∈ D', p ∈ X' → τ p ∈ X) :
    SameSet D σ X X' := fun p hp => ⟨fun hx => by
      have := h2 _ (h.there p hp).1 hx
      rwa [(h.there p hp).2] at this, h1 p hp⟩

theorem mem_image (h : SameEqs D D' σ τ E E' s s') {e : Set Pos} (he : e ⊆ D) {p : Pos} (hp : p ∈ D) : σ p ∈ σ '' e ↔ p ∈ e := by
  refine ⟨?_, fun hpe => ⟨p, hpe, rfl⟩⟩
  rintro ⟨q, hq, hqp⟩
  have := congrArg τ hqp
  rw [(h.there q (he hq)).2, (h.there p hp).2] at this
  rwa [← this]

theorem single_to (h : SameEqs D D' σ τ E E' s s') (hK : SameSet D σ K K') (v : Bool) {p : Pos} (hp : p ∈ D) (hx : p ∈ single s E v K) :
    σ p ∈ single s' E' v K' := by
  rcases hx with hx | ⟨e, he, hpe, hall⟩
  · exact .inl ((hK p hp).mpr hx)
  · refine .inr ⟨σ '' e, h.map e he, ⟨p, hpe, rfl⟩, ?_⟩
    rintro _ ⟨t, ht, rfl⟩
    rw [hK t (h.sub e he ht), h.val t (h.sub e he ht)]
    exact hall t ht

theorem paired_to (h : SameEqs D D' σ τ E E' s s') (hK : SameSet D σ K K') {p : Pos} (hp : p ∈ D) (hx : p ∈ paired s E K) :
    σ p ∈ paired s' E' K' := by
  rcases hx with hx | ⟨e, he, e', he', ⟨t, t1, t2, t3⟩, h1, h2, h3⟩
  · exact .inl ((hK p hp).mpr hx)
  · have hD := h.sub e he
    have hD' := h.sub e' he'
    refine .inr ⟨σ '' e, h.map e he, σ '' e', h.map e' he', ⟨σ t, ⟨t, t1, rfl⟩, ⟨t, t2, rfl⟩, fun hk => t3 ((hK t (hD t1)).mp hk)⟩, ?_, ?_, ?_⟩
    · rintro _ ⟨x, hx, rfl⟩ hn
      rw [h.mem_image hD' (hD hx)] at hn
      rw [hK x (hD hx), h.val x (hD hx)]
      exact h1 x hx hn
    · rintro _ ⟨x, hx, rfl⟩ hn
      rw [h.mem_image hD (hD' hx)] at hn
      rw [hK x (hD' hx), h.val x (hD' hx)]
      exact h2 x hx hn
    · rw [h.mem_image hD hp, h.mem_image hD' hp]
      exact h3

theorem single (h : SameEqs D D' σ τ E E' s s') (hK : SameSet D σ K K') (v : Bool) : SameSet D σ (single s E v K) (single s' E' v K') :=
  h.both (fun _ hp => h.single_to hK v hp) fun _ hp => h.symm.single_to (h.set_symm hK) v hp

theorem paired (h : SameEqs D D' σ τ E E' s s') (hK : SameSet D σ K K') : SameSet D σ (paired s E K) (paired s' E' K') :=
  h.both (fun _ hp => h.paired_to hK hp) fun _ hp => h.symm.paired_to (h.set_symm hK) hp

theorem singles (h : SameEqs D D' σ τ E E' s s') (hK : SameSet D σ K K') : SameSet D σ (singles s E K) (singles s' E' K') :=
  h.single (h.single hK true) false

theorem pairs (h : SameEqs D D' σ τ E E' s s') (hK : SameSet D σ K K') : SameSet D σ (pairs s E K) (pairs s' E' K') :=
  h.singles (h.paired hK)

theorem quick (h : SameEqs D D' σ τ E E' s s') : SameSet D σ (quick s E) (quick s' E') := h.pairs (h.singles fun p _ => by simp)

theorem unknowns_to (h : SameEqs D D' σ τ E E' s s') (hK : SameSet D σ K K') {p : Pos} (hp : p ∈ D) (hx : p ∈ unknowns E K) :
    σ p ∈ unknowns E' K' := by
  obtain ⟨h1, e, he, hpe⟩ := hx
  exact ⟨fun hk => h1 ((hK p hp).mp hk), σ '' e, h.map e he, ⟨p, hpe, rfl⟩⟩

theorem unknowns (h : SameEqs D D' σ τ E E' s s') (hK : SameSet D σ K K') : SameSet D σ (unknowns E K) (unknowns E' K') :=
  h.both (fun _ hp => h.unknowns_to hK hp) fun _ hp => h.symm.unknowns_to (h.set_symm hK) hp

theorem unknowns_sub (h : SameEqs D D' σ τ E E' s s') {p : Pos} (hx : p ∈ Spec.unknowns E K) : p ∈ D := by
  obtain ⟨-, e, he, hpe⟩ := hx
  exact h.sub e he hpe

theorem knotted (h : SameEqs D D' σ τ E E' s s') (hK : SameSet D σ K K') {p q : Pos} (hx : Knotted E K p q) : Knotted E' K' (σ p) (σ q) := by
  induction hx with
  | refl => exact .refl
  | tail _ h2 ih =>
    obtain ⟨e, he, a1, a2, a3, a4⟩ := h2
    have hD := h.sub e he
    exact .tail ih ⟨σ '' e, h.map e he, ⟨_, a1, rfl⟩, ⟨_, a2, rfl⟩, fun hk => a3 ((hK _ (hD a1)).mp hk), fun hk => a4 ((hK _ (hD a2)).mp hk)⟩

theorem small_to (h : SameEqs D D' σ τ E E' s s') (hK : SameSet D σ K K') (hs : SmallKnots E K) : SmallKnots E' K' := by
  intro l hl hu ht
  have hD' : ∀ a ∈ l, a ∈ D' := fun a ha => h.symm.unknowns_sub (hu a ha)
  have hK' := h.set_symm hK
  have := hs (l.map τ) (by
    refine (List.nodup_map_iff_inj_on hl).mpr fun a ha b hb e => ?_
    have := congrArg σ e
    rwa [(h.back a (hD' a ha)).2, (h.back b (hD' b hb)).2] at this) (by
    intro x hx
    obtain ⟨a, ha, rfl⟩ := List.mem_map.mp hx
    exact h.symm.unknowns_to hK' (hD' a ha) (hu a ha)) (by
    intro x hx y hy
    obtain ⟨a, ha, rfl⟩ := List.mem_map.mp hx
    obtain ⟨b, hb, rfl⟩ := List.mem_map.mp hy
    exact h.symm.knotted hK' (ht a ha b hb))
  simpa using this

theorem small (h : SameEqs D D' σ τ E E' s s') (hK : SameSet D σ K K') : SmallKnots E' K' ↔ SmallKnots E K :=
  ⟨h.symm.small_to (h.set_symm hK), h.small_to hK⟩

theorem twin_to (h : SameEqs D D' σ τ E E' s s') (hK : SameSet D σ K K') {p : Pos} (hp : p ∈ D) (hx : TwinIn E K p) : TwinIn E' K' (σ p) := by
  obtain ⟨q, h1, h2, h3⟩ := hx
  have hq := h.unknowns_sub h2
  refine ⟨σ q, fun he => h1 ?_, h.unknowns_to hK hq h2, fun e he => ?_⟩
  · have := congrArg τ he
    rwa [(h.there q hq).2, (h.there p hp).2] at this
  · have := h3 (τ '' e) (h.map' e he)
    have e1 : ∀ x ∈ D, (x ∈ τ '' e ↔ σ x ∈ e) := by
      intro x hx
      have := h.symm.mem_image (h.sub' e he) (h.there x hx).1
      rwa [(h.there x hx).2] at this
    rwa [e1 p hp, e1 q hq] at this

theorem twin (h : SameEqs D D' σ τ E E' s s') (hK : SameSet D σ K K') {p : Pos} (hp : p ∈ D) : TwinIn E' K' (σ p) ↔ TwinIn E K p :=
  ⟨fun hx => by
    have := h.symm.twin_to (h.set_symm hK) (h.there p hp).1 hx
    rwa [(h.there p hp).2] at this, h.twin_to hK hp⟩

end SameEqs

variable {g g' : Board} {σ τ : Pos → Pos} {s : Pos → Bool}

theorem turned_equation (h : Turned σ τ g.view g'.view) {e : Set Pos} (he : e ∈ numbersOf g) : σ '' e ∈ numbersOf g' := by
  obtain ⟨n, hn, rfl⟩ := he
  refine ⟨σ n, turned_number h hn, ?_⟩
  ext t
  constructor
  · rintro ⟨q, ⟨h1, h2⟩, rfl⟩
    exact ⟨turned_covered h h1, (h.turn.near n hn.1 q h1.1).mpr h2⟩
  · rintro ⟨h1, h2⟩
    have hb := h.turn.back t h1.1
    refine ⟨τ t, ⟨turned_covered h.symm h1, ?_⟩, hb.2⟩
    have := h.turn.near n hn.1 (τ t) hb.1
    rw [hb.2] at this
    exact this.mp h2

theorem turned_eqs (h : Turned σ τ g.view g'.view) : SameEqs {p | p ∈ grid g.row g.col} {p | p ∈ grid g'.row g'.col} σ τ (numbersOf g)
    (numbersOf g') s fun p => s (τ p) := by
  refine ⟨fun p hp => h.turn.there p hp, fun p hp => h.turn.back p hp, ?_, ?_, fun e he => turned_equation h he,
    fun e he => turned_equation h.symm he, fun p hp => by show s (τ (σ p)) = s p; rw [(h.turn.there p hp).2]⟩
  · rintro _ ⟨n, -, rfl⟩ t ht
    exact ht.1.1
  · rintro _ ⟨n, -, rfl⟩ t ht
    exact ht.1.1

theorem turned_certain (h : Turned σ τ g.view g'.view) {p : Pos} (hp : p ∈ grid g.row g.col) (v : Bool) (hc : Certain g p v) :
    Certain g' (σ p) v := by
  intro f hf
  have := hc (fun q => f (σ q)) (turned_consistent h.symm (fun q hq => by
    show f (σ (τ q)) = f q
    rw [(h.turn.back q hq).2]) hf)
  exact this

theorem turned_certain_iff (h : Turned σ τ g.view g'.view) {p : Pos} (hp : p ∈ grid g.row g.col) (v : Bool) :
    Certain g' (σ p) v ↔ Certain g p v :=
  ⟨fun hc => by
    have := turned_certain h.symm (h.turn.there p hp).1 v hc
    rwa [(h.turn.there p hp).2] at this, turned_certain h hp v⟩

end Ms
