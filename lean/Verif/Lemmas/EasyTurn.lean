import Verif.SpecEasy
import Verif.Lemmas.Turn
import Verif.Lemmas.Solvable
import Verif.Lemmas.ForkIff

/-! # The player of `SpecEasy` on turned boards -/

namespace Ms

open Spec

/-- two boards and what is known of them, equal up to the turn -/
structure SameKnown (r c r' c' : Nat) (b b' : Board) (σ τ : Pos → Pos) (K K' : Finset Pos) : Prop where
  turn : Turn r c r' c' σ τ
  lay : ∀ p ∈ grid r c, layout b' (σ p) = layout b p
  mem : ∀ p ∈ grid r c, σ p ∈ K' ↔ p ∈ K

variable {r c r' c' : Nat} {b b' : Board} {σ τ : Pos → Pos} {K K' : Finset Pos}

namespace SameKnown

theorem symm (h : SameKnown r c r' c' b b' σ τ K K') : SameKnown r' c' r c b' b τ σ K' K := by
  refine ⟨h.turn.symm, fun p hp => ?_, fun p hp => ?_⟩
  · have := h.lay _ (h.turn.back p hp).1
    rw [(h.turn.back p hp).2] at this
    exact this.symm
  · have := h.mem _ (h.turn.back p hp).1
    rw [(h.turn.back p hp).2] at this
    exact this.symm

theorem readsAt (h : SameKnown r c r' c' b b' σ τ K K') {q : Pos} (hq : ReadsAt r c b K q) : ReadsAt r' c' b' K' (σ q) :=
  ⟨(h.turn.there q hq.1).1, (h.mem q hq.1).mpr hq.2.1, by rw [h.lay q hq.1]; exact hq.2.2⟩

theorem near (h : SameKnown r c r' c' b b' σ τ K K') {p q : Pos} (hp : p ∈ grid r' c') (hq : q ∈ grid r c) :
    Near p (σ q) ↔ Near (τ p) q := by
  have := h.turn.near (τ p) (h.turn.back p hp).1 q hq
  rwa [(h.turn.back p hp).2] at this

theorem settled (h : SameKnown r c r' c' b b' σ τ K K') (hs : Settled r c b K) : Settled r' c' b' K' := by
  have back : ∀ t ∈ grid r' c', τ t ∈ K → t ∈ K' := fun t ht hk => by
    have := (h.mem _ (h.turn.back t ht).1).mpr hk
    rwa [(h.turn.back t ht).2] at this
  have hnear : ∀ p ∈ grid r' c', ∀ t ∈ grid r' c', Near (τ p) (τ t) ↔ Near p t := h.turn.symm.near
  constructor
  · intro v q hq hall t ht hn
    refine back t ht (hs.one v (τ q) (h.symm.readsAt hq) (fun u hu hnu => ?_) (τ t) (h.turn.back t ht).1
      ((hnear q hq.1 t ht).mpr hn))
    rcases hall (σ u) (h.turn.there u hu).1 ((h.near hq.1 hu).mpr hnu) with h1 | h1
    · exact .inl ((h.mem u hu).mp h1)
    · exact .inr (by rw [← h.lay u hu]; exact h1)
  · intro q q' hq hq' h1 h2 t ht hn
    refine back t ht (hs.pair (τ q) (τ q') (h.symm.readsAt hq) (h.symm.readsAt hq') (fun u hu a1 a2 => ?_)
      (fun u hu a1 a2 => ?_) (τ t) (h.turn.back t ht).1 (by rw [hnear q hq.1 t ht, hnear q' hq'.1 t ht]; exact hn))
    · rcases h1 (σ u) (h.turn.there u hu).1 ((h.near hq.1 hu).mpr a1) (fun k => a2 ((h.near hq'.1 hu).mp k)) with k | k
      · exact .inl ((h.mem u hu).mp k)
      · exact .inr (by rw [← h.lay u hu]; exact k)
    · rcases h2 (σ u) (h.turn.there u hu).1 ((h.near hq'.1 hu).mpr a1) (fun k => a2 ((h.near hq.1 hu).mp k)) with k | k
      · exact .inl ((h.mem u hu).mp k)
      · exact .inr (by rw [← h.lay u hu]; exact k)

theorem easy_sub (h : SameKnown r c r' c' b b' σ τ K K') {p : Pos} (hp : p ∈ easy r c b K) : σ p ∈ easy r' c' b' K' := by
  classical
  unfold easy at hp ⊢
  rw [Finset.mem_filter] at hp ⊢
  refine ⟨(h.turn.there p hp.1).1, fun C' hC' hset => ?_⟩
  have hsame : SameKnown r c r' c' b b' σ τ (K ∪ (grid r c).filter fun q => σ q ∈ C') C' := by
    refine ⟨h.turn, h.lay, fun q hq => ?_⟩
    rw [Finset.mem_union, Finset.mem_filter]
    constructor
    · exact fun hk => .inr ⟨hq, hk⟩
    · rintro (hk | hk)
      · exact hC' ((h.mem q hq).mpr hk)
      · exact hk.2
  have := hp.2 _ Finset.subset_union_left (hsame.symm.settled hset)
  exact (hsame.mem p hp.1).mpr this

theorem easy (h : SameKnown r c r' c' b b' σ τ K K') :
    SameKnown r c r' c' b b' σ τ (easy r c b K) (easy r' c' b' K') := by
  refine ⟨h.turn, h.lay, fun p hp => ⟨fun hk => ?_, h.easy_sub⟩⟩
  have := h.symm.easy_sub hk
  rwa [(h.turn.there p hp).2] at this

theorem tied (h : SameKnown r c r' c' b b' σ τ K K') {p q : Pos} (hp : p ∈ grid r c) (hq : Tied r c b K p q) :
    q ∈ grid r c ∧ Tied r' c' b' K' (σ p) (σ q) := by
  induction hq with
  | refl => exact ⟨hp, .refl⟩
  | @tail x y _ hs ih =>
    obtain ⟨⟨h1, h2⟩, n, h3, h4, h5⟩ := hs
    refine ⟨h1, ih.2.tail ⟨⟨(h.turn.there y h1).1, fun k => h2 ((h.mem y h1).mp k)⟩, σ n, h.readsAt h3, ?_, ?_⟩⟩
    · exact (h.turn.near n h3.1 x ih.1).mpr h4
    · exact (h.turn.near n h3.1 y h1).mpr h5

theorem edge (h : SameKnown r c r' c' b b' σ τ K K') {p : Pos} (hp : Edge r c b K p) : Edge r' c' b' K' (σ p) := by
  obtain ⟨h1, h2, n, h3, h4⟩ := hp
  exact ⟨(h.turn.there p h1).1, fun k => h2 ((h.mem p h1).mp k), σ n, h.readsAt h3, (h.turn.near n h3.1 p h1).mpr h4⟩

theorem tooLarge (h : SameKnown r c r' c' b b' σ τ K K') (hl : TooLarge r c b K) : TooLarge r' c' b' K' := by
  classical
  obtain ⟨p, hp, hc⟩ := hl
  refine ⟨σ p, h.edge hp, lt_of_lt_of_le hc ?_⟩
  refine Finset.card_le_card_of_injOn σ (fun q hq => ?_) (fun x hx y hy hxy => ?_)
  · have hq' := Finset.mem_filter.mp hq
    exact Finset.mem_coe.mpr (Finset.mem_filter.mpr ⟨(h.turn.there q hq'.1).1, (h.tied hp.1 hq'.2).2⟩)
  · have h1 := (h.turn.there x (Finset.mem_filter.mp hx).1).2
    have h2 := (h.turn.there y (Finset.mem_filter.mp hy).1).2
    rw [← h1, ← h2, hxy]

theorem fits (h : SameKnown r c r' c' b b' σ τ K K') {f : Pos → Bool} (hf : Fits r' c' b' K' f) :
    Fits r c b K fun q => f (σ q) := by
  refine ⟨fun p hp hk => ?_, fun n hn => ?_⟩
  · show f (σ p) = _
    rw [hf.1 (σ p) (h.turn.there p hp).1 ((h.mem p hp).mpr hk), h.lay p hp]
  · rw [← turned_layoutNear h.turn (s := fun q => f (σ q)) (s' := f) (fun _ _ => rfl) hn.1, hf.2 _ (h.readsAt hn)]
    exact turned_layoutNear h.turn h.lay hn.1

theorem hasDouble (h : SameKnown r c r' c' b b' σ τ K K') {p : Pos} (hp : p ∈ grid r c) (hd : HasDouble r c b K p) :
    HasDouble r' c' b' K' (σ p) := by
  obtain ⟨q, h1, h2, h3, h4⟩ := hd
  refine ⟨σ q, (h.turn.there q h1).1, fun k => h2 ((h.mem q h1).mp k), fun k => h3 ?_, fun n hn => ?_⟩
  · rw [← (h.turn.there q h1).2, k, (h.turn.there p hp).2]
  · rw [h.near hn.1 hp, h.near hn.1 h1]
    exact h4 _ (h.symm.readsAt hn)

theorem hard_sub (h : SameKnown r c r' c' b b' σ τ K K') {p : Pos} (hp : p ∈ grid r c) (hk : p ∈ hard r c b K) :
    σ p ∈ hard r' c' b' K' := by
  classical
  unfold hard at hk ⊢
  rw [Finset.mem_union, Finset.mem_filter] at hk ⊢
  rcases hk with hk | ⟨-, h1, h2⟩
  · exact .inl ((h.mem p hp).mpr hk)
  · refine .inr ⟨(h.turn.there p hp).1, h.edge h1, ?_⟩
    rcases h2 with h2 | ⟨h2, h3⟩
    · exact .inl fun f hf => h2 _ (h.fits hf)
    · refine .inr ⟨fun f hf => h2 _ (h.fits hf), fun hd => h3 ?_⟩
      have := h.symm.hasDouble (h.turn.there p hp).1 hd
      rwa [(h.turn.there p hp).2] at this

theorem hard (h : SameKnown r c r' c' b b' σ τ K K') :
    SameKnown r c r' c' b b' σ τ (hard r c b K) (hard r' c' b' K') := by
  refine ⟨h.turn, h.lay, fun p hp => ⟨fun hk => ?_, h.hard_sub hp⟩⟩
  have := h.symm.hard_sub (h.turn.there p hp).1 hk
  rwa [(h.turn.there p hp).2] at this

theorem clears_there (h : SameKnown r c r' c' b b' σ τ K K') (hc : Clears r c b K) : Clears r' c' b' K' := by
  induction hc generalizing K' with
  | done h1 =>
    refine .done fun p hp hl => ?_
    have hk := h.turn.back p hp
    have := h.easy_sub (h1 (τ p) hk.1 (by rw [← h.lay _ hk.1, hk.2]; exact hl))
    rwa [hk.2] at this
  | more h1 _ ih => exact .more (fun k => h1 (h.easy.symm.tooLarge k)) (ih h.easy.hard)

theorem clears (h : SameKnown r c r' c' b b' σ τ K K') : Clears r c b K ↔ Clears r' c' b' K' :=
  ⟨h.clears_there, h.symm.clears_there⟩

end SameKnown

theorem turned_rect_numbered (h : Turn r c r' c' σ τ) (hcell : ∀ p ∈ grid r c, b'.get (σ p).1 (σ p).2 = b.get p.1 p.2)
    (hb : Rect b r c) (hb' : Rect b' r' c') (hr : 0 < r) (hr' : 0 < r') (hnum : Numbered b.view) : Numbered b'.view := by
  obtain ⟨a1, a2⟩ := rect_dims hb hr
  obtain ⟨a3, a4⟩ := rect_dims hb' hr'
  refine turned_numbered (σ := σ) (τ := τ) ⟨?_, ?_⟩ hnum
  · change Turn b.row b.col b'.row b'.col σ τ
    rw [a1, a2, a3, a4]
    exact h
  · intro p hp
    change p ∈ grid b.row b.col at hp
    rw [a1, a2] at hp
    exact hcell p hp

theorem turned_clears (h : Turn r c r' c' σ τ) (hcell : ∀ p ∈ grid r c, b'.get (σ p).1 (σ p).2 = b.get p.1 p.2) {s : Pos}
    (hs : s ∈ grid r c) : Clears r c b {s} ↔ Clears r' c' b' {σ s} := by
  refine SameKnown.clears (σ := σ) (τ := τ) ⟨h, fun p hp => by unfold layout; rw [hcell p hp], fun p hp => ?_⟩
  rw [Finset.mem_singleton, Finset.mem_singleton]
  constructor
  · intro e
    rw [← (h.there p hp).2, e, (h.there s hs).2]
  · rintro rfl; rfl

/-! ## dead structures -/

/-- a turn that keeps sides, corners and `2×2` squares -/
structure Rigid (r c r' c' : Nat) (σ : Pos → Pos) : Prop where
  orth : ∀ p ∈ grid r c, ∀ q ∈ grid r c, Orth p q → Orth (σ p) (σ q)
  corner : ∀ p ∈ grid r c, IsCorner r c p → IsCorner r' c' (σ p)
  square : ∀ i j, i + 1 < r → j + 1 < c → ∃ i' j', i' + 1 < r' ∧ j' + 1 < c' ∧
    (∀ p ∈ grid r c, InSquare i' j' (σ p) → InSquare i j p) ∧
    ∀ q ∈ grid r c, (((σ q).1 + 1 = i' ∨ (σ q).1 = i' + 2) ∧ ((σ q).2 + 1 = j' ∨ (σ q).2 = j' + 2)) →
      (q.1 + 1 = i ∨ q.1 = i + 2) ∧ (q.2 + 1 = j ∨ q.2 = j + 2)

theorem Rigid.dead (hg : Rigid r c r' c' σ) (hg' : Rigid r' c' r c τ) (h : Turn r c r' c' σ τ)
    (hlay : ∀ p ∈ grid r c, layout b' (σ p) = layout b p) :
    ((∃ z, DeadHole r c b z) → ∃ z, DeadHole r' c' b' z) ∧ ((∃ x y, DeadPair r c b x y) → ∃ x y, DeadPair r' c' b' x y) ∧
      ((∃ i j, DeadSquare r c b i j) → ∃ i j, DeadSquare r' c' b' i j) := by
  have hback : ∀ p ∈ grid r' c', layout b' p = layout b (τ p) := fun p hp => by
    rw [← hlay _ (h.back p hp).1, (h.back p hp).2]
  have hinj : ∀ p ∈ grid r' c', ∀ q ∈ grid r c, p ≠ σ q → τ p ≠ q := fun p hp q hq hne e => hne (by
    rw [← e, (h.back p hp).2])
  have hnear : ∀ p ∈ grid r' c', ∀ q ∈ grid r c, Near p (σ q) ↔ Near (τ p) q := fun p hp q hq => by
    have := h.near (τ p) (h.back p hp).1 q hq
    rwa [(h.back p hp).2] at this
  have hnear' : ∀ p ∈ grid r' c', ∀ q ∈ grid r c, Near (σ q) p ↔ Near q (τ p) := fun p hp q hq => by
    have := h.near q hq (τ p) (h.back p hp).1
    rwa [(h.back p hp).2] at this
  refine ⟨?_, ?_, ?_⟩
  · rintro ⟨z, h1, h2, h3⟩
    refine ⟨σ z, (h.there z h1).1, by rw [hlay z h1, h2], fun q hq ha => ?_⟩
    rw [hback q hq]
    refine h3 _ (h.back q hq).1 ⟨(hnear' q hq z h1).mp ha.1, fun e => ha.2 ?_⟩
    rw [e, (h.back q hq).2]
  · rintro ⟨x, y, h1, h2, h3, h4, h5⟩
    refine ⟨σ x, σ y, (h.there x h1).1, (h.there y h2).1, hg.orth x h1 y h2 h3, by rw [hlay x h1, hlay y h2, h4], ?_⟩
    intro q hq hx hy hn
    rw [hback q hq]
    refine h5 _ (h.back q hq).1 (hinj q hq x h1 hx) (hinj q hq y h2 hy) ?_
    rwa [hnear q hq x h1, hnear q hq y h2] at hn
  · rintro ⟨i, j, h1, h2, h3, h4⟩
    obtain ⟨i', j', k1, k2, k3, k4⟩ := hg.square i j h1 h2
    have hin : ∀ x, InSquare i' j' x → x ∈ grid r' c' := by
      rintro ⟨x1, x2⟩ ⟨e1, e2⟩
      rw [mem_grid]
      simp only at *
      omega
    refine ⟨i', j', k1, k2, fun x y hx hy cx cy ho => ?_, fun q hq e1 e2 => ?_⟩
    · have gx := hin x hx
      have gy := hin y hy
      rw [hback x gx, hback y gy]
      have hc : ∀ p ∈ grid r' c', ¬ IsCorner r' c' p → ¬ IsCorner r c (τ p) := fun p hp hn hk => hn (by
        have := hg.corner _ (h.back p hp).1 hk
        rwa [(h.back p hp).2] at this)
      refine h3 _ _ (k3 _ (h.back x gx).1 ?_) (k3 _ (h.back y gy).1 ?_) (hc x gx cx) (hc y gy cy) (hg'.orth x gx y gy ho)
      · rw [(h.back x gx).2]; exact hx
      · rw [(h.back y gy).2]; exact hy
    · rw [hback q hq]
      have := k4 (τ q) (h.back q hq).1 (by rw [(h.back q hq).2]; exact ⟨e1, e2⟩)
      exact h4 _ (h.back q hq).1 this.1 this.2

theorem rigid_mirror (r c : Nat) : Rigid r c r c fun p => (p.1, c - 1 - p.2) := by
  refine ⟨fun p hp q hq h => ?_, fun p hp h => ?_, fun i j hi hj => ⟨i, c - 2 - j, hi, by omega, fun p hp h => ?_, fun q hq h => ?_⟩⟩ <;>
    simp only [mem_grid, Orth, IsCorner, InSquare] at * <;> omega

theorem rigid_upsideDown (r c : Nat) : Rigid r c r c fun p => (r - 1 - p.1, p.2) := by
  refine ⟨fun p hp q hq h => ?_, fun p hp h => ?_, fun i j hi hj => ⟨r - 2 - i, j, by omega, hj, fun p hp h => ?_, fun q hq h => ?_⟩⟩ <;>
    simp only [mem_grid, Orth, IsCorner, InSquare] at * <;> omega

theorem rigid_flipped (r c : Nat) : Rigid r c c r fun p => (p.2, p.1) := by
  refine ⟨fun p hp q hq h => ?_, fun p hp h => ?_, fun i j hi hj => ⟨j, i, by omega, by omega, fun p hp h => ?_, fun q hq h => ?_⟩⟩ <;>
    simp only [mem_grid, Orth, IsCorner, InSquare] at * <;> omega

end Ms
