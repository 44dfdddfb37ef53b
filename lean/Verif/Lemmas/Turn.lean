import Verif.SpecTurn
import Mathlib.Tactic

/-! # What turning a board does to the notions of the specification -/

namespace Ms
open Ms.Spec

theorem Spec.Turn.symm {r c r' c' : Nat} {σ τ : Pos → Pos} (h : Turn r c r' c' σ τ) : Turn r' c' r c τ σ where
  there := h.back
  back := h.there
  near := by
    intro p hp q hq
    have := h.near (τ p) (h.back p hp).1 (τ q) (h.back q hq).1
    rw [(h.back p hp).2, (h.back q hq).2] at this
    exact this.symm

theorem Spec.Turn.comp {r c r' c' r'' c'' : Nat} {σ τ σ' τ' : Pos → Pos} (h : Turn r c r' c' σ τ) (k : Turn r' c' r'' c'' σ' τ') :
    Turn r c r'' c'' (fun p => σ' (σ p)) (fun p => τ (τ' p)) where
  there p hp := ⟨(k.there _ (h.there p hp).1).1, by rw [(k.there _ (h.there p hp).1).2, (h.there p hp).2]⟩
  back p hp := ⟨(h.back _ (k.back p hp).1).1, by rw [(h.back _ (k.back p hp).1).2, (k.back p hp).2]⟩
  near p hp q hq := (k.near _ (h.there p hp).1 _ (h.there q hq).1).trans (h.near p hp q hq)

theorem Spec.Turned.symm {σ τ : Pos → Pos} {v w : View} (h : Turned σ τ v w) : Turned τ σ w v where
  turn := h.turn.symm
  cells := by
    intro p hp
    rw [← h.cells _ (h.turn.back p hp).1, (h.turn.back p hp).2]

theorem Spec.Turned.comp {σ τ σ' τ' : Pos → Pos} {u v w : View} (h : Turned σ τ u v) (k : Turned σ' τ' v w) :
    Turned (fun p => σ' (σ p)) (fun p => τ (τ' p)) u w where
  turn := h.turn.comp k.turn
  cells p hp := (k.cells _ (h.turn.there p hp).1).trans (h.cells p hp)

section
variable {r c r' c' : Nat} {σ τ : Pos → Pos}

/-- sets of cells correspond -/
structure Pair (r c r' c' : Nat) (σ : Pos → Pos) (S S' : Finset Pos) : Prop where
  sub : S ⊆ grid r c
  sub' : S' ⊆ grid r' c'
  iff : ∀ p ∈ grid r c, p ∈ S ↔ σ p ∈ S'

theorem Pair.symm {S S' : Finset Pos} (h : Turn r c r' c' σ τ) (k : Pair r c r' c' σ S S') : Pair r' c' r c τ S' S :=
  ⟨k.sub', k.sub, fun p hp => by rw [k.iff _ (h.back p hp).1, (h.back p hp).2]⟩

theorem Pair.card {S S' : Finset Pos} (h : Turn r c r' c' σ τ) (k : Pair r c r' c' σ S S') : S'.card = S.card := by
  symm
  refine Finset.card_nbij' σ τ ?_ ?_ ?_ ?_
  · intro p hp
    exact (k.iff p (k.sub hp)).mp hp
  · intro p hp
    exact ((k.symm h).iff p (k.sub' hp)).mp hp
  · intro p hp
    exact (h.there p (k.sub hp)).2
  · intro p hp
    exact (h.back p (k.sub' hp)).2

theorem Pair.filter {S S' : Finset Pos} (k : Pair r c r' c' σ S S') (P Q : Pos → Prop) [DecidablePred P] [DecidablePred Q]
    (hPQ : ∀ p ∈ S, P p ↔ Q (σ p)) : Pair r c r' c' σ (S.filter P) (S'.filter Q) := by
  refine ⟨(Finset.filter_subset _ _).trans k.sub, (Finset.filter_subset _ _).trans k.sub', fun p hp => ?_⟩
  rw [Finset.mem_filter, Finset.mem_filter, ← k.iff p hp]
  constructor
  · rintro ⟨a, b⟩; exact ⟨a, (hPQ p a).mp b⟩
  · rintro ⟨a, b⟩; exact ⟨a, (hPQ p a).mpr b⟩

theorem pair_grid (h : Turn r c r' c' σ τ) : Pair r c r' c' σ (grid r c) (grid r' c') :=
  ⟨Finset.Subset.refl _, Finset.Subset.refl _, fun p hp => ⟨fun _ => (h.there p hp).1, fun _ => hp⟩⟩

theorem pair_image (h : Turn r c r' c' σ τ) {A : Finset Pos} (hA : A ⊆ grid r c) : Pair r c r' c' σ A (A.image σ) := by
  refine ⟨hA, ?_, fun p hp => ?_⟩
  · intro q hq
    obtain ⟨p, hp, rfl⟩ := Finset.mem_image.mp hq
    exact (h.there p (hA hp)).1
  · constructor
    · exact fun hp => Finset.mem_image_of_mem _ hp
    · intro hq
      obtain ⟨a, ha, e⟩ := Finset.mem_image.mp hq
      have : a = p := by rw [← (h.there a (hA ha)).2, e, (h.there p hp).2]
      exact this ▸ ha

theorem Pair.linked {S S' : Finset Pos} (h : Turn r c r' c' σ τ) (k : Pair r c r' c' σ S S') {p q : Pos}
    (hl : Linked S p q) : Linked S' (σ p) (σ q) := by
  induction hl with
  | refl => exact .refl
  | tail _ hs ih =>
    refine ih.tail ⟨(k.iff _ (k.sub hs.1)).mp hs.1, (k.iff _ (k.sub hs.2.1)).mp hs.2.1, ?_⟩
    exact (h.near _ (k.sub hs.1) _ (k.sub hs.2.1)).mpr hs.2.2

theorem Pair.components {S S' : Finset Pos} (h : Turn r c r' c' σ τ) (k : Pair r c r' c' σ S S') :
    components S' = components S := by
  unfold Spec.components
  refine Nat.card_congr (Quotient.congr ⟨fun x => ⟨τ x.1, ((k.symm h).iff _ (k.sub' x.2)).mp x.2⟩,
    fun x => ⟨σ x.1, (k.iff _ (k.sub x.2)).mp x.2⟩, ?_, ?_⟩ ?_)
  · intro x; exact Subtype.ext (h.back _ (k.sub' x.2)).2
  · intro x; exact Subtype.ext (h.there _ (k.sub x.2)).2
  · intro a b
    constructor
    · intro hab; exact (k.symm h).linked h.symm hab
    · intro hab
      have := k.linked h (show Linked S (τ a.1) (τ b.1) from hab)
      rw [(h.back _ (k.sub' a.2)).2, (h.back _ (k.sub' b.2)).2] at this
      exact this

end

section
variable {σ τ : Pos → Pos} {v w : View}

theorem turned_filter (h : Turned σ τ v w) (P Q : Pos → Prop) [DecidablePred P] [DecidablePred Q]
    (hPQ : ∀ p ∈ vcells v, P p ↔ Q (σ p)) :
    Pair v.row v.col w.row w.col σ ((vcells v).filter P) ((vcells w).filter Q) :=
  (pair_grid h.turn).filter P Q hPQ

theorem turned_val (h : Turned σ τ v w) {p : Pos} (hp : p ∈ vcells v) : val w (σ p) = val v p := h.cells p hp

theorem turned_zeros (h : Turned σ τ v w) : Pair v.row v.col w.row w.col σ (zeros v) (zeros w) :=
  turned_filter h _ _ fun p hp => by rw [turned_val h hp]

theorem turned_mines (h : Turned σ τ v w) : Pair v.row v.col w.row w.col σ (mines v) (mines w) :=
  turned_filter h _ _ fun p hp => by rw [turned_val h hp]

theorem turned_isolated (h : Turned σ τ v w) : Pair v.row v.col w.row w.col σ (isolated v) (isolated w) := by
  refine turned_filter h _ _ fun p hp => ?_
  rw [turned_val h hp]
  refine and_congr_right fun _ => ?_
  constructor
  · intro hq q hq1 hq2
    have hb := h.turn.back q hq1
    rw [← hb.2, turned_val h hb.1]
    refine hq _ hb.1 ?_
    rw [← h.turn.near p hp _ hb.1, hb.2]
    exact hq2
  · intro hq q hq1 hq2
    rw [← turned_val h hq1]
    exact hq _ (h.turn.there q hq1).1 ((h.turn.near p hp q hq1).mpr hq2)

theorem turn_inj {r c r' c' : Nat} (h : Turn r c r' c' σ τ) {p q : Pos} (hp : p ∈ grid r c) (hq : q ∈ grid r c) : σ p = σ q ↔ p = q :=
  ⟨fun e => by rw [← (h.there p hp).2, e, (h.there q hq).2], fun e => by rw [e]⟩

theorem turned_adjCount (h : Turned σ τ v w) {p : Pos} (hp : p ∈ vcells v) : adjCount (mines w) (σ p) = adjCount (mines v) p := by
  unfold adjCount
  refine Pair.card h.turn ((turned_mines h).filter _ _ fun q hq => ?_)
  have hq' := (turned_mines h).sub hq
  unfold Adj
  rw [h.turn.near p hp q hq', Ne, Ne, turn_inj h.turn hp hq']

theorem turned_numbered (h : Turned σ τ v w) (hn : Numbered v) : Numbered w := by
  intro q hq hm
  have hb := h.turn.back q hq
  rw [← hb.2, turned_val h hb.1] at hm ⊢
  rw [turned_adjCount h hb.1]
  exact hn _ hb.1 hm

end

/-! ### game boards -/

section
variable {σ τ : Pos → Pos} {g g' : Board}

theorem turned_number (h : Turned σ τ g.view g'.view) {p : Pos} (hp : IsNumber g p) : IsNumber g' (σ p) :=
  ⟨(h.turn.there p hp.1).1, by have := h.cells p hp.1; change g'.get _ _ = g.get _ _ at this; rw [this]; exact hp.2⟩

theorem turned_covered (h : Turned σ τ g.view g'.view) {p : Pos} (hp : IsCovered g p) : IsCovered g' (σ p) :=
  ⟨(h.turn.there p hp.1).1, by have := h.cells p hp.1; change g'.get _ _ = g.get _ _ at this; rw [this]; exact hp.2⟩

theorem turned_number_iff (h : Turned σ τ g.view g'.view) {p : Pos} (hp : p ∈ grid g.row g.col) : IsNumber g' (σ p) ↔ IsNumber g p :=
  ⟨fun k => by have := turned_number h.symm k; rwa [(h.turn.there p hp).2] at this, turned_number h⟩

theorem turned_covered_iff (h : Turned σ τ g.view g'.view) {p : Pos} (hp : p ∈ grid g.row g.col) : IsCovered g' (σ p) ↔ IsCovered g p :=
  ⟨fun k => by have := turned_covered h.symm k; rwa [(h.turn.there p hp).2] at this, turned_covered h⟩

theorem shares_grid {a b : Pos} (ha : a ∈ grid g.row g.col) (h : SharesNumbers g a b) : b ∈ grid g.row g.col := by
  induction h with
  | refl => exact ha
  | tail _ hs _ => exact hs.1.1

theorem turned_shares (h : Turned σ τ g.view g'.view) {a b : Pos} (ha : a ∈ grid g.row g.col) (hs : SharesNumbers g a b) :
    SharesNumbers g' (σ a) (σ b) := by
  induction hs with
  | refl => exact .refl
  | @tail x y hx hy ih =>
    have hxg := shares_grid ha hx
    obtain ⟨hc, n, hn, n1, n2⟩ := hy
    exact ih.tail ⟨turned_covered h hc, σ n, turned_number h hn, (h.turn.near n hn.1 x hxg).mpr n1,
      (h.turn.near n hn.1 y hc.1).mpr n2⟩

theorem turned_reach (h : Turned σ τ g.view g'.view) {p : Pos} (hp : p ∈ grid g.row g.col) (hr : InReach g p) :
    InReach g' (σ p) := by
  intro l hl hq
  have key : ∀ q ∈ l, q ∈ grid g'.row g'.col := by
    intro q hq'
    obtain ⟨a, ha, _, hs⟩ := hq q hq'
    exact shares_grid ha.1 hs
  have := hr (l.map τ) (by
    refine (List.nodup_map_iff_inj_on hl).mpr fun a ha b hb e => ?_
    exact (turn_inj h.turn.symm (key a ha) (key b hb)).mp e) (by
    intro q hq'
    obtain ⟨x, hx, rfl⟩ := List.mem_map.mp hq'
    obtain ⟨a, ha, hn, hs⟩ := hq x hx
    refine ⟨τ a, turned_covered h.symm ha, ?_, turned_shares h.symm ha.1 hs⟩
    have := h.turn.near p hp (τ a) (h.turn.back a ha.1).1
    rw [(h.turn.back a ha.1).2] at this
    exact this.mp hn)
  simpa using this

theorem turned_reach_iff (h : Turned σ τ g.view g'.view) {p : Pos} (hp : p ∈ grid g.row g.col) :
    InReach g' (σ p) ↔ InReach g p :=
  ⟨fun k => by have := turned_reach h.symm (h.turn.there p hp).1 k; rwa [(h.turn.there p hp).2] at this, turned_reach h hp⟩

theorem turned_minesNear (h : Turned σ τ g.view g'.view) {s s' : Pos → Bool} (hs : ∀ p ∈ grid g.row g.col, s' (σ p) = s p) {p : Pos}
    (hp : p ∈ grid g.row g.col) : minesNear g' s' (σ p) = minesNear g s p := by
  unfold minesNear
  refine Pair.card h.turn ((pair_grid h.turn).filter _ _ fun q hq => ?_)
  have := h.cells q hq
  change g'.get _ _ = g.get _ _ at this
  rw [h.turn.near p hp q hq, this, hs q hq]

theorem turned_consistent (h : Turned σ τ g.view g'.view) {s s' : Pos → Bool} (hs : ∀ p ∈ grid g.row g.col, s' (σ p) = s p)
    (hc : Consistent g s) : Consistent g' s' := by
  intro q hq
  have hb := h.turn.back q hq.1
  have hn := turned_number h.symm hq
  have := h.cells _ hb.1
  change g'.get _ _ = g.get _ _ at this
  rw [hb.2] at this
  rw [this, hc _ hn, ← turned_minesNear h hs hb.1, hb.2]

theorem turned_reachConsistent (h : Turned σ τ g.view g'.view) {s s' : Pos → Bool}
    (hs : ∀ p ∈ grid g.row g.col, s' (σ p) = s p) (hc : ReachConsistent g s) : ReachConsistent g' s' := by
  intro q hq hcov hr
  have hb := h.turn.back q hq.1
  have hn := turned_number h.symm hq
  have := h.cells _ hb.1
  change g'.get _ _ = g.get _ _ at this
  rw [hb.2] at this
  obtain ⟨a, ha, hna⟩ := hcov
  rw [this, hc _ hn ⟨τ a, turned_covered h.symm ha, (h.turn.symm.near q hq.1 a ha.1).mpr hna⟩
    (turned_reach h.symm hq.1 hr), ← turned_minesNear h hs hb.1, hb.2]

theorem pair_covered (h : Turned σ τ g.view g'.view) : Pair g.row g.col g'.row g'.col σ (coveredSet g) (coveredSet g') :=
  (pair_grid h.turn).filter _ _ fun p hp => by
    have := h.cells p hp
    change g'.get _ _ = g.get _ _ at this
    rw [this]

theorem pair_marked (h : Turned σ τ g.view g'.view) : Pair g.row g.col g'.row g'.col σ (markedSet g) (markedSet g') :=
  (pair_grid h.turn).filter _ _ fun p hp => by
    have := h.cells p hp
    change g'.get _ _ = g.get _ _ at this
    rw [this]

theorem coveredSet_sub (g : Board) : coveredSet g ⊆ grid g.row g.col := Finset.filter_subset _ _

theorem turned_layout (h : Turned σ τ g.view g'.view) {m : Nat} {A : Finset Pos} (hA : A ∈ layouts g m) :
    A.image σ ∈ layouts g' m := by
  classical
  unfold layouts at hA ⊢
  rw [Finset.mem_filter, Finset.mem_powerset] at hA ⊢
  obtain ⟨h1, h2, h3⟩ := hA
  have hp := pair_image h.turn (h1.trans (coveredSet_sub g))
  refine ⟨?_, ?_, ?_⟩
  · intro q hq
    obtain ⟨p, hp', rfl⟩ := Finset.mem_image.mp hq
    exact ((pair_covered h).iff p (coveredSet_sub g (h1 hp'))).mp (h1 hp')
  · rw [hp.card h.turn, h2]
  · exact turned_reachConsistent h (fun p hp' => by
      have := hp.iff p hp'
      by_cases hm : p ∈ A
      · simp only [hm, decide_true, decide_eq_true_eq]; exact this.mp hm
      · simp only [hm, decide_false, decide_eq_false_iff_not]; exact fun k => hm (this.mpr k)) h3

theorem layout_sub {m : Nat} {A : Finset Pos} (hA : A ∈ layouts g m) : A ⊆ grid g.row g.col := by
  classical
  unfold layouts at hA
  rw [Finset.mem_filter, Finset.mem_powerset] at hA
  exact hA.1.trans (coveredSet_sub g)

theorem turned_image_back (h : Turned σ τ g.view g'.view) {A : Finset Pos} (hA : A ⊆ grid g.row g.col) :
    (A.image σ).image τ = A := by
  rw [Finset.image_image]
  conv_rhs => rw [← Finset.image_id (s := A)]
  exact Finset.image_congr fun p hp => (h.turn.there p (hA hp)).2

open Classical in
theorem turned_layouts_card (h : Turned σ τ g.view g'.view) (m : Nat) (P Q : Finset Pos → Prop)
    (hPQ : ∀ A ∈ layouts g m, P A ↔ Q (A.image σ)) :
    ((layouts g' m).filter Q).card = ((layouts g m).filter P).card := by
  symm
  refine Finset.card_nbij' (fun A => A.image σ) (fun A => A.image τ) ?_ ?_ ?_ ?_
  · intro A hA
    simp only [Finset.mem_coe, Finset.mem_filter] at hA ⊢
    exact ⟨turned_layout h hA.1, (hPQ A hA.1).mp hA.2⟩
  · intro A hA
    simp only [Finset.mem_coe, Finset.mem_filter] at hA ⊢
    have hb := turned_layout h.symm hA.1
    refine ⟨hb, (hPQ _ hb).mpr ?_⟩
    rw [turned_image_back h.symm (layout_sub hA.1)]
    exact hA.2
  · intro A hA
    simp only [Finset.mem_coe, Finset.mem_filter] at hA
    exact turned_image_back h (layout_sub hA.1)
  · intro A hA
    simp only [Finset.mem_coe, Finset.mem_filter] at hA
    exact turned_image_back h.symm (layout_sub hA.1)

theorem turned_layouts_nonempty (h : Turned σ τ g.view g'.view) (m : Nat) : (layouts g' m).Nonempty ↔ (layouts g m).Nonempty :=
  ⟨fun ⟨_, hA⟩ => ⟨_, turned_layout h.symm hA⟩, fun ⟨_, hA⟩ => ⟨_, turned_layout h hA⟩⟩

theorem turned_layouts_card_all (h : Turned σ τ g.view g'.view) (m : Nat) : (layouts g' m).card = (layouts g m).card := by
  classical
  have := turned_layouts_card h m (fun _ => True) (fun _ => True) (fun _ _ => Iff.rfl)
  simpa using this

theorem turned_chance (h : Turned σ τ g.view g'.view) (m : Nat) {q : Pos} (hq : q ∈ grid g.row g.col) :
    chance g' m (σ q) = chance g m q := by
  classical
  unfold chance
  rw [turned_layouts_card_all h m]
  split
  · rfl
  · have := turned_layouts_card h m (fun A => q ∈ A) (fun A => σ q ∈ A) fun A hA =>
      (pair_image h.turn (layout_sub hA)).iff q hq
    refine congrArg some ?_
    congr 2
    convert this

theorem turned_fringe (h : Turned σ τ g.view g'.view) {q : Pos} (hq : q ∈ grid g.row g.col) : Fringe g' (σ q) ↔ Fringe g q := by
  have main : ∀ {σ τ : Pos → Pos} {g g' : Board}, Turned σ τ g.view g'.view → ∀ {q : Pos}, Fringe g q → Fringe g' (σ q) := by
    intro σ τ g g' h q hq
    obtain ⟨h1, p, h2, h3, h4⟩ := hq
    exact ⟨turned_covered h h1, σ p, turned_number h h2, turned_reach h h2.1 h3, (h.turn.near p h2.1 q h1.1).mpr h4⟩
  exact ⟨fun k => by have := main h.symm k; rwa [(h.turn.there q hq).2] at this, main h⟩

theorem turned_area (h : Turned σ τ g.view g'.view) : g'.row * g'.col = g.row * g.col := by
  have := (pair_grid h.turn).card h.turn
  have e : g'.view.row * g'.view.col = g.view.row * g.view.col := by simpa [grid] using this
  exact e

end

/-! ### solving without guessing -/

section
variable {r c r' c' : Nat} {σ τ : Pos → Pos} {b b' : Board}

theorem turned_layoutNear (h : Turn r c r' c' σ τ) {s s' : Pos → Bool} (hs : ∀ p ∈ grid r c, s' (σ p) = s p) {p : Pos}
    (hp : p ∈ grid r c) : layoutNear r' c' s' (σ p) = layoutNear r c s p := by
  unfold layoutNear
  refine Pair.card h ((pair_grid h).filter _ _ fun q hq => ?_)
  rw [h.near p hp q hq, hs q hq]

theorem turned_openable (h : Turn r c r' c' σ τ) (hb : ∀ p ∈ grid r c, b'.get (σ p).1 (σ p).2 = b.get p.1 p.2) {s : Pos}
    (hs : s ∈ grid r c) {O : Finset Pos} (ho : Openable r c b s O) :
    O ⊆ grid r c ∧ Openable r' c' b' (σ s) (O.image σ) := by
  have hl : ∀ p ∈ grid r c, layout b' (σ p) = layout b p := fun p hp => by unfold layout; rw [hb p hp]
  induction ho with
  | start =>
    refine ⟨by simpa using hs, ?_⟩
    rw [Finset.image_singleton]
    exact .start
  | @step O p hO hp hsafe ih =>
    refine ⟨Finset.insert_subset hp ih.1, ?_⟩
    rw [Finset.image_insert]
    refine .step ih.2 (h.there p hp).1 fun s' hs' => ?_
    refine hsafe (fun q => s' (σ q)) fun q hq => ?_
    obtain ⟨e1, e2⟩ := hs' (σ q) (Finset.mem_image_of_mem _ hq)
    refine ⟨e1, ?_⟩
    rw [← turned_layoutNear h (s := fun q => s' (σ q)) (fun _ _ => rfl) (ih.1 hq), e2]
    exact turned_layoutNear h hl (ih.1 hq)

theorem turned_noGuess (h : Turn r c r' c' σ τ) (hb : ∀ p ∈ grid r c, b'.get (σ p).1 (σ p).2 = b.get p.1 p.2) {s : Pos}
    (hs : s ∈ grid r c) (hn : NoGuess r c b s) : NoGuess r' c' b' (σ s) := by
  obtain ⟨O, hO, hall⟩ := hn
  refine ⟨_, (turned_openable h hb hs hO).2, fun q hq hl => ?_⟩
  have hk := h.back q hq
  have := hall (τ q) hk.1 (by unfold layout at hl ⊢; rw [← hb _ hk.1, hk.2]; exact hl)
  rw [← hk.2]
  exact Finset.mem_image_of_mem _ this

end

end Ms
