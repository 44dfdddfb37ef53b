import Verif.Lemmas.Basic
import Verif.Model.Metrics
import Verif.Spec

namespace Ms
open Spec

theorem mem_block_near {row col i j : Nat} {p : Pos} :
    p ∈ block row col i j ↔ p ∈ grid row col ∧ Near (i, j) p := by
  rw [mem_block']
  simp only [grid, Finset.mem_product, Finset.mem_range, Near]
  omega

theorem mem_grid {r c : Nat} {p : Pos} : p ∈ grid r c ↔ p.1 < r ∧ p.2 < c := by
  simp [grid]

theorem mem_cells_grid {r c : Nat} {p : Pos} : p ∈ cells r c ↔ p ∈ grid r c := by
  rw [mem_cells, mem_grid]

theorem cells_toFinset (r c : Nat) : (cells r c).toFinset = grid r c := by
  ext p; rw [List.mem_toFinset, mem_cells_grid]

/-- cell of a board, at a position -/
def bval (b : Board) (p : Pos) : Int := b.get p.1 p.2

theorem bval_set {b : Board} {r c : Nat} (h : Rect b r c) {p : Pos} (hp : p ∈ grid r c)
    (q : Pos) (v : Int) : bval (b.set p.1 p.2 v) q = if q = p then v else bval b q := by
  rw [mem_grid] at hp
  unfold bval
  rw [get_set h hp.1 hp.2]
  by_cases hq : q = p
  · subst hq; simp
  · rw [if_neg hq, if_neg]
    intro h'; exact hq (Prod.ext h'.1 h'.2)

/-- zero cells of a board -/
def bzeros (r c : Nat) (b : Board) : Finset Pos := (grid r c).filter fun p => bval b p = 0

theorem mem_bzeros {r c : Nat} {b : Board} {p : Pos} :
    p ∈ bzeros r c b ↔ p ∈ grid r c ∧ bval b p = 0 := by simp [bzeros]

/-- `b'` is `b` with some zeros turned into ones, such that the changed set is closed. -/
structure Infected (r c : Nat) (b b' : Board) (R : Pos → Prop) : Prop where
  rect : Rect b' r c
  change : ∀ p ∈ grid r c, bval b' p = bval b p ∨ (bval b p = 0 ∧ bval b' p = 1 ∧ R p)
  closed : ∀ p ∈ grid r c, bval b p = 0 → bval b' p = 1 → ∀ q ∈ grid r c, Near p q → bval b' q ≠ 0

theorem Spec.Linked.mono {S T : Finset Pos} (h : S ⊆ T) {p q : Pos} (hl : Linked S p q) :
    Linked T p q := by
  induction hl with
  | refl => exact .refl
  | tail _ k ih => exact Relation.ReflTransGen.tail ih ⟨h k.1, h k.2.1, k.2.2⟩

theorem near_refl (p : Pos) : Near p p := by unfold Near; omega

theorem infect_spec (r c : Nat) : ∀ (fuel : Nat) (b : Board) (x : Pos),
    Rect b r c → x ∈ bzeros r c b → (bzeros r c b).card ≤ fuel →
    ∃ b', infectBoard r c fuel b x.1 x.2 = some b' ∧ bval b' x = 1 ∧
      Infected r c b b' (fun p => Linked (bzeros r c b) x p) := by
  intro fuel
  induction fuel with
  | zero =>
    intro b x _ hx hc
    have := Finset.card_pos.mpr ⟨x, hx⟩
    omega
  | succ fuel ih =>
    intro b x hb hx hc
    obtain ⟨hxg, hx0⟩ := mem_bzeros.mp hx
    have hx12 := mem_grid.mp hxg
    -- the loop
    have loop : ∀ (l : List Pos) (b1 : Board), (∀ p ∈ l, p ∈ grid r c ∧ Near x p) → Rect b1 r c →
        (bzeros r c b1).card ≤ fuel → bzeros r c b1 ⊆ bzeros r c b →
        ∃ b', l.foldlM (m := Option) (fun b p =>
            if b.get p.1 p.2 = 0 then infectBoard r c fuel b p.1 p.2 else some b) b1 = some b' ∧
          Infected r c b1 b' (fun p => Linked (bzeros r c b) x p) ∧ ∀ p ∈ l, bval b' p ≠ 0 := by
      intro l
      induction l with
      | nil =>
        intro b1 _ hb1 _ _
        refine ⟨b1, rfl, ⟨hb1, fun p _ => .inl rfl, ?_⟩, by simp⟩
        intro p _ h0 h1; omega
      | cons a l ihl =>
        intro b1 hl hb1 hc1 hsub
        obtain ⟨hag, hna⟩ := hl a (by simp)
        have hl' : ∀ p ∈ l, p ∈ grid r c ∧ Near x p := fun p hp => hl p (by simp [hp])
        rw [List.foldlM_cons]
        by_cases ha : b1.get a.1 a.2 = 0
        · have ha0 : a ∈ bzeros r c b1 := mem_bzeros.mpr ⟨hag, ha⟩
          obtain ⟨b2, hb2, ha1, hI⟩ := ih b1 a hb1 ha0 hc1
          have hsub2 : bzeros r c b2 ⊆ bzeros r c b1 := by
            intro p hp
            rw [mem_bzeros] at hp ⊢
            refine ⟨hp.1, ?_⟩
            rcases hI.change p hp.1 with h | ⟨h, _⟩
            · rw [← h]; exact hp.2
            · exact h
          obtain ⟨b3, hb3, hI3, hl3⟩ := ihl b2 hl' hI.rect
            (le_trans (Finset.card_le_card hsub2) hc1) (hsub2.trans hsub)
          have keep : ∀ p ∈ grid r c, bval b2 p ≠ 0 → bval b3 p = bval b2 p := by
            intro p hp h
            rcases hI3.change p hp with h' | ⟨h', _⟩
            · exact h'
            · exact absurd h' h
          refine ⟨b3, ?_, ⟨hI3.rect, ?_, ?_⟩, ?_⟩
          · simp [ha, hb2, hb3]
          · intro p hp
            rcases hI.change p hp with h | ⟨h0, h1, hR⟩
            · rcases hI3.change p hp with h' | ⟨h0', h1', hR'⟩
              · left; rw [h', h]
              · right; exact ⟨by rw [← h]; exact h0', h1', hR'⟩
            · right
              refine ⟨h0, ?_, ?_⟩
              · rw [keep p hp (by omega), h1]
              · exact Relation.ReflTransGen.head ⟨hx, hsub ha0, hna⟩ (Linked.mono hsub hR)
          · intro p hp h0 h1 q hq hpq
            by_cases h2 : bval b2 p = 1
            · have := hI.closed p hp h0 h2 q hq hpq
              rw [keep q hq this]; exact this
            · have h20 : bval b2 p = 0 := by
                rcases hI.change p hp with h | ⟨_, h, _⟩
                · rw [h]; exact h0
                · exact absurd h h2
              exact hI3.closed p hp h20 h1 q hq hpq
          · intro p hp
            rcases List.mem_cons.mp hp with rfl | hp
            · rw [keep p hag (by omega)]; omega
            · exact hl3 p hp
        · obtain ⟨b3, hb3, hI3, hl3⟩ := ihl b1 hl' hb1 hc1 hsub
          refine ⟨b3, by simp [ha, hb3], hI3, ?_⟩
          intro p hp
          rcases List.mem_cons.mp hp with rfl | hp
          · rcases hI3.change p hag with h | ⟨h, _⟩
            · rw [h]; exact ha
            · exact absurd h ha
          · exact hl3 p hp
    -- run it
    have hset := fun q => bval_set hb hxg q 1
    have hb1 := rect_set hb x.1 x.2 1
    have hsub : bzeros r c (b.set x.1 x.2 1) ⊆ (bzeros r c b).erase x := by
      intro p hp
      rw [mem_bzeros, hset] at hp
      rw [Finset.mem_erase, mem_bzeros]
      by_cases h : p = x
      · subst h; simp at hp
      · rw [if_neg h] at hp; exact ⟨h, hp⟩
    have hcard : (bzeros r c (b.set x.1 x.2 1)).card ≤ fuel := by
      have := Finset.card_le_card hsub
      rw [Finset.card_erase_of_mem hx] at this
      omega
    obtain ⟨b', hb', hI, hl⟩ := loop (block r c x.1 x.2) (b.set x.1 x.2 1)
      (fun p hp => mem_block_near.mp hp) hb1 hcard (hsub.trans (Finset.erase_subset _ _))
    refine ⟨b', hb', ?_, ⟨hI.rect, ?_, ?_⟩⟩
    · rcases hI.change x hxg with h | ⟨h, _⟩
      · rw [h, hset]; simp
      · rw [hset] at h; simp at h
    · intro p hp
      have hc := hI.change p hp
      rw [hset] at hc
      by_cases h : p = x
      · subst h
        simp only [if_true] at hc
        right
        rcases hc with h | ⟨h, _⟩
        · exact ⟨hx0, h, .refl⟩
        · simp at h
      · rw [if_neg h] at hc; exact hc
    · intro p hp h0 h1 q hq hpq
      by_cases h : p = x
      · subst h
        exact hl q (mem_block_near.mpr ⟨hq, hpq⟩)
      · exact hI.closed p hp (by rw [hset, if_neg h]; exact h0) h1 q hq hpq

/-- Loop invariant of `cal_op`: the marked cells are a union of components, with representatives. -/
structure OpInv (v : View) (b : Board) (L : List Pos) : Prop where
  rect : Rect b v.row v.col
  change : ∀ p ∈ vcells v, bval b p = val v p ∨ (val v p = 0 ∧ bval b p = 1)
  closed : ∀ p ∈ vcells v, val v p = 0 → bval b p = 1 → ∀ q ∈ vcells v, Near p q → bval b q ≠ 0
  reps : ∀ p ∈ L, p ∈ zeros v ∧ bval b p = 1
  apart : L.Pairwise fun p q => ¬ Linked (zeros v) p q
  covered : ∀ p ∈ zeros v, bval b p = 1 → ∃ q ∈ L, Linked (zeros v) q p

theorem OpInv.marked_linked {v : View} {b : Board} {L : List Pos} (h : OpInv v b L) {p q : Pos}
    (hp : p ∈ zeros v) (hb : bval b p = 1) (hl : Linked (zeros v) p q) : bval b q = 1 := by
  induction hl with
  | refl => exact hb
  | tail _ k ih =>
    obtain ⟨ha, hc, hn⟩ := k
    simp only [zeros, Finset.mem_filter] at ha hc
    have h2 := h.closed _ ha.1 ha.2 ih _ hc.1 hn
    rcases h.change _ hc.1 with h' | h'
    · rw [h'] at h2; exact absurd hc.2 h2
    · exact h'.2

theorem card_grid (r c : Nat) : (grid r c).card = r * c := by
  simp [grid, Finset.card_product]

theorem calOp_loop (v : View) : ∀ (l : List Pos) (b : Board) (L : List Pos),
    (∀ p ∈ l, p ∈ vcells v) → OpInv v b L →
    ∃ b' L', l.foldlM (m := Option)
      (fun (st : Board × Nat) p =>
        if st.1.get p.1 p.2 = 0 then
          (infectBoard v.row v.col (v.row * v.col) st.1 p.1 p.2).map fun b => (b, st.2 + 1)
        else some st) (b, L.length) = some (b', L'.length) ∧ OpInv v b' L' ∧
      (∀ p ∈ vcells v, bval b p ≠ 0 → bval b' p ≠ 0) ∧ ∀ p ∈ l, bval b' p ≠ 0 := by
  intro l
  induction l with
  | nil => intro b L _ h; exact ⟨b, L, rfl, h, fun _ _ h => h, by simp⟩
  | cons a l ih =>
    intro b L hl hI
    have hag := hl a (by simp)
    have hl' : ∀ p ∈ l, p ∈ vcells v := fun p hp => hl p (by simp [hp])
    rw [List.foldlM_cons]
    by_cases ha : b.get a.1 a.2 = 0
    · have haz : a ∈ bzeros v.row v.col b := mem_bzeros.mpr ⟨hag, ha⟩
      have hsub : bzeros v.row v.col b ⊆ zeros v := by
        intro p hp
        rw [mem_bzeros] at hp
        simp only [zeros, Finset.mem_filter]
        refine ⟨hp.1, ?_⟩
        rcases hI.change p hp.1 with h | h
        · rw [← h]; exact hp.2
        · exact h.1
      have hfuel : (bzeros v.row v.col b).card ≤ v.row * v.col := by
        rw [← card_grid]; exact Finset.card_le_card (Finset.filter_subset _ _)
      obtain ⟨b2, hb2, ha1, hJ⟩ := infect_spec v.row v.col _ b a hI.rect haz hfuel
      have keep : ∀ p ∈ vcells v, bval b p ≠ 0 → bval b2 p = bval b p := by
        intro p hp h
        rcases hJ.change p hp with h' | ⟨h', _⟩
        · exact h'
        · exact absurd h' h
      have hI2 : OpInv v b2 (a :: L) := by
        refine ⟨hJ.rect, ?_, ?_, ?_, ?_, ?_⟩
        · intro p hp
          rcases hJ.change p hp with h | ⟨h0, h1, _⟩
          · rw [h]; exact hI.change p hp
          · right
            refine ⟨?_, h1⟩
            rcases hI.change p hp with h | h
            · rw [← h]; exact h0
            · exact h.1
        · intro p hp h0 h1 q hq hpq
          by_cases hbp : bval b p = 1
          · have := hI.closed p hp h0 hbp q hq hpq
            rw [keep q hq this]; exact this
          · have hb0 : bval b p = 0 := by
              rcases hI.change p hp with h | h
              · rw [h]; exact h0
              · exact absurd h.2 hbp
            exact hJ.closed p hp hb0 h1 q hq hpq
        · intro p hp
          rcases List.mem_cons.mp hp with rfl | hp
          · exact ⟨hsub haz, ha1⟩
          · obtain ⟨h1, h2⟩ := hI.reps p hp
            refine ⟨h1, ?_⟩
            rw [keep p (Finset.mem_filter.mp h1).1 (by omega)]; exact h2
        · rw [List.pairwise_cons]
          refine ⟨?_, hI.apart⟩
          intro p hp hlink
          obtain ⟨h1, h2⟩ := hI.reps p hp
          have := hI.marked_linked h1 h2 hlink.symm
          have ha' : bval b a = 0 := ha
          omega
        · intro p hp h1
          rcases hJ.change p (Finset.mem_filter.mp hp).1 with h | ⟨_, _, hR⟩
          · obtain ⟨q, hq, hlq⟩ := hI.covered p hp (by rw [← h]; exact h1)
            exact ⟨q, by simp [hq], hlq⟩
          · exact ⟨a, by simp, Linked.mono hsub hR⟩
      obtain ⟨b', L', hrun, hI', hmono, hdone⟩ := ih b2 (a :: L) hl' hI2
      refine ⟨b', L', ?_, hI', ?_, ?_⟩
      · simp only [ha, if_true, hb2, Option.map_some, Option.bind_eq_bind, Option.bind_some]
        exact hrun
      · intro p hp h; exact hmono p hp (by rw [keep p hp h]; exact h)
      · intro p hp
        rcases List.mem_cons.mp hp with rfl | hp
        · exact hmono p hag (by omega)
        · exact hdone p hp
    · obtain ⟨b', L', hrun, hI', hmono, hdone⟩ := ih b L hl' hI
      refine ⟨b', L', ?_, hI', hmono, ?_⟩
      · simp only [ha, if_false, Option.bind_eq_bind, Option.bind_some]
        exact hrun
      · intro p hp
        rcases List.mem_cons.mp hp with rfl | hp
        · exact hmono p hag ha
        · exact hdone p hp

theorem components_eq_of_reps {S : Finset Pos} {L : List Pos} (hL : ∀ p ∈ L, p ∈ S)
    (hap : L.Pairwise fun p q => ¬ Linked S p q) (hcov : ∀ p ∈ S, ∃ q ∈ L, Linked S q p) :
    components S = L.length := by
  unfold components
  rw [← Nat.card_fin L.length]
  symm
  refine Nat.card_eq_of_bijective
    (fun i : Fin L.length => (Quotient.mk (linkedSetoid S) ⟨L[i], hL _ (List.getElem_mem i.2)⟩)) ?_
  constructor
  · intro i j hij
    have hl : Linked S L[i] L[j] := Quotient.exact hij
    rw [List.pairwise_iff_getElem] at hap
    rcases Nat.lt_trichotomy i.1 j.1 with h | h | h
    · exact absurd hl (hap _ _ i.2 j.2 h)
    · exact Fin.ext h
    · exact absurd hl.symm (hap _ _ j.2 i.2 h)
  · intro q
    induction q using Quotient.ind with
    | _ p =>
      obtain ⟨q, hq, hl⟩ := hcov p.1 p.2
      obtain ⟨i, hi, rfl⟩ := List.getElem_of_mem hq
      exact ⟨⟨i, hi⟩, Quotient.sound hl⟩

/-- representatives of the components, as found by `cal_op` -/
theorem calOp_reps (v : View) : ∃ L : List Pos, calOp? v = some L.length ∧ (∀ p ∈ L, p ∈ zeros v) ∧
    (L.Pairwise fun p q => ¬ Linked (zeros v) p q) ∧
    ∀ p ∈ zeros v, ∃ q ∈ L, Linked (zeros v) q p := by
  have h0 : OpInv v (Board.build v.row v.col v.get) [] := by
    refine ⟨rect_build _ _ _, ?_, ?_, by simp, List.Pairwise.nil, ?_⟩
    · intro p hp
      have := mem_grid.mp hp
      left; unfold bval val; rw [get_build _ this.1 this.2]
    · intro p hp hz h1
      have := mem_grid.mp hp
      unfold bval at h1; rw [get_build _ this.1 this.2] at h1
      unfold val at hz; omega
    · intro p hp h1
      simp only [zeros, Finset.mem_filter] at hp
      have := mem_grid.mp hp.1
      unfold bval at h1; rw [get_build _ this.1 this.2] at h1
      unfold val at hp; omega
  obtain ⟨b', L', hrun, hI, _, hdone⟩ := calOp_loop v (cells v.row v.col) _ []
    (fun p hp => mem_cells_grid.mp hp) h0
  refine ⟨L', ?_, fun p hp => (hI.reps p hp).1, hI.apart, ?_⟩
  · unfold calOp?
    simp only [List.length_nil] at hrun
    rw [hrun]; rfl
  · intro p hp
    refine hI.covered p hp ?_
    have hpz := Finset.mem_filter.mp hp
    have := hdone p (mem_cells_grid.mpr hpz.1)
    rcases hI.change p hpz.1 with h | h
    · rw [h] at this; exact absurd hpz.2 this
    · exact h.2

theorem calOp_eq (v : View) : calOp? v = some (components (zeros v)) := by
  obtain ⟨L, h, h1, h2, h3⟩ := calOp_reps v
  rw [h, components_eq_of_reps h1 h2 h3]


/-! ## folds that count or write -/

theorem foldl_count {α} (P : α → Bool) (l : List α) (k : Nat) :
    l.foldl (fun n p => if P p then n + 1 else n) k = k + (l.filter P).length := by
  induction l generalizing k with
  | nil => simp
  | cons a l ih =>
    simp only [List.foldl_cons, List.filter_cons]
    rw [ih]
    by_cases h : P a <;> simp [h] <;> omega

theorem filter_cells_card (r c : Nat) (P : Pos → Prop) [DecidablePred P] :
    ((cells r c).filter (fun p => decide (P p))).length = ((grid r c).filter P).card := by
  rw [← cells_toFinset, ← List.toFinset_card_of_nodup ((nodup_cells r c).filter _)]
  congr 1
  ext p; simp

theorem foldl_write {r c : Nat} (f : Pos → Option Int) (l : List Pos)
    (hl : ∀ p ∈ l, p ∈ grid r c) : ∀ (b : Board), Rect b r c →
    Rect (l.foldl (fun b p => (f p).elim b (fun x => b.set p.1 p.2 x)) b) r c ∧
    ∀ q, bval (l.foldl (fun b p => (f p).elim b (fun x => b.set p.1 p.2 x)) b) q =
      if q ∈ l then (f q).getD (bval b q) else bval b q := by
  induction l with
  | nil => intro b hb; exact ⟨hb, by simp⟩
  | cons a l ih =>
    intro b hb
    have hag := hl a (by simp)
    have hl' : ∀ p ∈ l, p ∈ grid r c := fun p hp => hl p (by simp [hp])
    simp only [List.foldl_cons]
    cases hfa : f a with
    | none =>
      simp only [Option.elim_none]
      obtain ⟨h1, h2⟩ := ih hl' b hb
      refine ⟨h1, fun q => ?_⟩
      rw [h2]
      by_cases hqa : q = a
      · subst hqa; simp [hfa]
      · simp [hqa]
    | some x =>
      simp only [Option.elim_some]
      obtain ⟨h1, h2⟩ := ih hl' (b.set a.1 a.2 x) (rect_set hb _ _ _)
      refine ⟨h1, fun q => ?_⟩
      rw [h2, bval_set hb hag]
      by_cases hqa : q = a
      · subst hqa; simp [hfa]
      · simp [hqa]

theorem calIsl_eq (v : View) : calIsl v = components (isolated v) := by
  unfold calIsl
  have hfun : (fun (b : Board) (p : Pos) =>
      if v.get p.1 p.2 ≤ 0 then b
      else if (block v.row v.col p.1 p.2).any (fun q => v.get q.1 q.2 = 0) then b
      else b.set p.1 p.2 0) =
      fun b p => (if p ∈ isolated v ∨ p ∉ vcells v ∧ ¬ v.get p.1 p.2 ≤ 0 ∧
        ¬ (block v.row v.col p.1 p.2).any (fun q => v.get q.1 q.2 = 0) then some (0 : Int)
        else none).elim b (fun x => b.set p.1 p.2 x) := by
    funext b p
    have key : (∃ q ∈ block v.row v.col p.1 p.2, v.get q.1 q.2 = 0) ↔
        ¬ ∀ q ∈ vcells v, Near p q → val v q ≠ 0 := by
      constructor
      · rintro ⟨q, hq, h0⟩ h
        obtain ⟨h1, h2⟩ := mem_block_near.mp hq
        exact h q h1 h2 h0
      · intro h
        push Not at h
        obtain ⟨q, h1, h2, h3⟩ := h
        exact ⟨q, mem_block_near.mpr ⟨h1, h2⟩, h3⟩
    by_cases h1 : v.get p.1 p.2 ≤ 0
    · have : p ∉ isolated v := by
        simp only [isolated, Finset.mem_filter, not_and]
        intro _ h; unfold val at h; omega
      simp [h1, this]
    · by_cases h2 : (block v.row v.col p.1 p.2).any (fun q => v.get q.1 q.2 = 0) = true
      · have h2' := h2
        simp only [List.any_eq_true, decide_eq_true_eq] at h2
        have : p ∉ isolated v := by
          simp only [isolated, Finset.mem_filter, not_and]
          intro _ _; exact key.mp h2
        simp only [h1, if_false, h2', if_true, this, not_true, and_false, or_false]
        rfl
      · have h2' := h2
        simp only [List.any_eq_true, decide_eq_true_eq] at h2
        rw [key, not_not] at h2
        have : p ∈ isolated v ∨ p ∉ vcells v := by
          by_cases hp : p ∈ vcells v
          · left
            simp only [isolated, Finset.mem_filter]
            refine ⟨hp, ?_, h2⟩
            unfold val; omega
          · exact .inr hp
        rw [if_neg h1, if_neg h2', if_pos (by tauto)]
        rfl
  rw [hfun]
  obtain ⟨hR, hget⟩ := foldl_write (r := v.row) (c := v.col)
    (fun p => if p ∈ isolated v ∨ p ∉ vcells v ∧ ¬ v.get p.1 p.2 ≤ 0 ∧
        ¬ (block v.row v.col p.1 p.2).any (fun q => v.get q.1 q.2 = 0) then some (0 : Int)
        else none) (cells v.row v.col)
    (fun p hp => mem_cells_grid.mp hp) (Board.build v.row v.col fun _ _ => 1) (rect_build _ _ _)
  generalize hm : (cells v.row v.col).foldl _ _ = m at hR hget
  show calOp m.view = _
  unfold calOp
  rw [calOp_eq, Option.getD_some]
  congr 1
  have hrow : m.view.row = v.row := hR.row_eq
  ext p
  simp only [zeros, Finset.mem_filter]
  by_cases h0 : v.row = 0
  · have e1 : p ∉ vcells m.view := by
      intro h; have := mem_grid.mp h; omega
    have e2 : p ∉ isolated v := by
      intro h; have := mem_grid.mp (Finset.mem_filter.mp h).1; omega
    simp [e1, e2]
  · have hcol : m.view.col = v.col := hR.col_eq (by omega)
    have hv : vcells m.view = vcells v := by unfold vcells; rw [hrow, hcol]
    rw [hv]
    constructor
    · rintro ⟨hp, hz⟩
      have hz' : bval m p = 0 := hz
      rw [hget, if_pos (mem_cells_grid.mpr hp)] at hz'
      by_contra hni
      have hg := mem_grid.mp hp
      rw [if_neg (by tauto)] at hz'
      simp only [Option.getD_none] at hz'
      unfold bval at hz'
      rw [get_build _ hg.1 hg.2] at hz'
      omega
    · intro hi
      have hp := (Finset.mem_filter.mp hi).1
      refine ⟨hp, ?_⟩
      show bval m p = 0
      rw [hget, if_pos (mem_cells_grid.mpr hp), if_pos (.inl hi)]
      rfl

theorem foldl_flag {α} (P : α → Prop) [DecidablePred P] (l : List α) (f : Bool) :
    l.foldl (fun flag q => if P q then false else flag) f = (f && decide (∀ q ∈ l, ¬ P q)) := by
  induction l generalizing f with
  | nil => simp
  | cons a l ih =>
    simp only [List.foldl_cons]
    rw [ih]
    by_cases h : P a
    · simp [h]
    · simp [h]

theorem cal3BVonIsland_eq (v : View) : cal3BVonIsland v = (isolated v).card := by
  unfold cal3BVonIsland isolated vcells
  rw [← filter_cells_card]
  have hfun : (fun (n : Nat) (p : Pos) =>
      if v.get p.1 p.2 > 0 then
        if (block v.row v.col p.1 p.2).foldl
          (fun flag q => if v.get q.1 q.2 = 0 then false else flag) true then n + 1 else n
      else n) = fun n p => if decide (0 < val v p ∧
        ∀ q ∈ grid v.row v.col, Near p q → val v q ≠ 0) then n + 1 else n := by
    funext n p
    rw [foldl_flag]
    have key : (∀ q ∈ block v.row v.col p.1 p.2, ¬ v.get q.1 q.2 = 0) ↔
        ∀ q ∈ grid v.row v.col, Near p q → val v q ≠ 0 := by
      constructor
      · intro h q h1 h2; exact h q (mem_block_near.mpr ⟨h1, h2⟩)
      · intro h q hq
        obtain ⟨h1, h2⟩ := mem_block_near.mp hq
        exact h q h1 h2
    simp only [Bool.true_and, decide_eq_true_eq, key]
    by_cases h1 : v.get p.1 p.2 > 0
    · have h1' : 0 < val v p := h1
      simp only [h1, h1', if_true, true_and]
    · have h1' : ¬ 0 < val v p := h1
      simp [h1, h1']
  show (cells v.row v.col).foldl _ 0 = _
  rw [hfun, foldl_count]
  simp

theorem calBbbv_eq (v : View) :
    calBbbv v = (isolated v).card + components (zeros v) := by
  unfold calBbbv calOp
  rw [cal3BVonIsland_eq, calOp_eq, Option.getD_some]

/-! ## digit counts -/

theorem cellNums_loop (v : View) : ∀ (l : List Pos) (ans : List Nat), ans.length = 9 →
    (∀ p ∈ l, val v p ≤ 8) →
    ∃ ans', l.foldlM (m := Option)
    (fun (ans : List Nat) p =>
      if v.get p.1 p.2 < 0 then some ans
      else if (v.get p.1 p.2).toNat < 9 then
        some (ans.modify (v.get p.1 p.2).toNat (· + 1))
      else none) ans = some ans' ∧ ans'.length = 9 ∧
      ∀ k < 9, ans'.getD k 0 = ans.getD k 0 + (l.filter fun p => decide (val v p = (k : Int))).length := by
  intro l
  induction l with
  | nil => intro ans h _; exact ⟨ans, rfl, h, by simp⟩
  | cons a l ih =>
    intro ans hlen hl
    have ha := hl a (by simp)
    have hl' : ∀ p ∈ l, val v p ≤ 8 := fun p hp => hl p (by simp [hp])
    rw [List.foldlM_cons]
    by_cases h0 : v.get a.1 a.2 < 0
    · obtain ⟨ans', h1, h2, h3⟩ := ih ans hlen hl'
      refine ⟨ans', by simp only [h0, if_true, Option.bind_eq_bind, Option.bind_some]; exact h1, h2, ?_⟩
      intro k hk
      rw [h3 k hk, List.filter_cons, if_neg]
      simp only [decide_eq_true_eq]; unfold val; omega
    · have h9 : (v.get a.1 a.2).toNat < 9 := by unfold val at ha; omega
      obtain ⟨ans', h1, h2, h3⟩ := ih (ans.modify (v.get a.1 a.2).toNat (· + 1))
        (by simpa using hlen) hl'
      refine ⟨ans', by simp only [h0, h9, if_true, if_false, Option.bind_eq_bind, Option.bind_some]; exact h1, h2, ?_⟩
      intro k hk
      rw [h3 k hk, List.filter_cons]
      simp only [List.getD_eq_getElem?_getD, List.getElem?_modify]
      by_cases hak : (v.get a.1 a.2).toNat = k
      · have : val v a = (k : Int) := by unfold val; omega
        simp [hak, this, hlen, hk]; omega
      · have : ¬ val v a = (k : Int) := by unfold val; omega
        simp [hak, this]

theorem cellNums_panic (v : View) : ∀ (l : List Pos) (ans : List Nat),
    (∃ p ∈ l, 8 < val v p) →
    l.foldlM (m := Option)
    (fun (ans : List Nat) p =>
      if v.get p.1 p.2 < 0 then some ans
      else if (v.get p.1 p.2).toNat < 9 then
        some (ans.modify (v.get p.1 p.2).toNat (· + 1))
      else none) ans = none := by
  intro l
  induction l with
  | nil => intro ans h; simp at h
  | cons a l ih =>
    intro ans h
    rw [List.foldlM_cons]
    by_cases ha : 8 < val v a
    · unfold val at ha
      have h0 : ¬ v.get a.1 a.2 < 0 := by omega
      have h9 : ¬ (v.get a.1 a.2).toNat < 9 := by omega
      simp [h0, h9]
    · have h' : ∃ p ∈ l, 8 < val v p := by
        obtain ⟨p, hp, h8⟩ := h
        rcases List.mem_cons.mp hp with rfl | hp
        · exact absurd h8 ha
        · exact ⟨p, hp, h8⟩
      by_cases h0 : v.get a.1 a.2 < 0
      · simp only [h0, if_true, Option.bind_eq_bind, Option.bind_some]; exact ih _ h'
      · have h9 : (v.get a.1 a.2).toNat < 9 := by unfold val at ha; omega
        simp only [h0, h9, if_true, if_false, Option.bind_eq_bind, Option.bind_some]; exact ih _ h'

/-! ## 3BV is optimal -/

theorem Spec.Reveals.cases' {v : View} {p q : Pos} (h : Reveals v p q) :
    p = q ∨ ∃ z, Reveals v p z ∧ val v z = 0 ∧ Near z q ∧ q ∈ vcells v := by
  cases h with
  | self => exact .inl rfl
  | spread h h0 hq hn => exact .inr ⟨_, h, h0, hn, hq⟩

theorem Spec.Reveals.mem {v : View} {p q : Pos} (h : Reveals v p q) (hp : p ∈ vcells v) :
    q ∈ vcells v := by
  cases h with
  | self => exact hp
  | spread _ _ hq _ => exact hq

/-- everything revealed that is zero is linked to the click, which is then zero too -/
theorem Spec.Reveals.zero {v : View} {p q : Pos} (h : Reveals v p q) (hp : p ∈ vcells v)
    (hq : val v q = 0) : val v p = 0 ∧ Linked (zeros v) p q := by
  induction h with
  | self => exact ⟨hq, .refl⟩
  | spread h h0 hm hn ih =>
    obtain ⟨h1, h2⟩ := ih h0
    refine ⟨h1, Relation.ReflTransGen.tail h2 ⟨?_, ?_, hn⟩⟩
    · exact Finset.mem_filter.mpr ⟨h.mem hp, h0⟩
    · exact Finset.mem_filter.mpr ⟨hm, hq⟩

theorem Spec.Reveals.of_linked {v : View} {p q : Pos} (hp : p ∈ zeros v)
    (h : Linked (zeros v) p q) : Reveals v p q := by
  induction h with
  | refl => exact .self
  | tail _ k ih =>
    exact .spread ih (Finset.mem_filter.mp k.1).2 (Finset.mem_filter.mp k.2.1).1 k.2.2

theorem numbered_nonneg {v : View} (h : Numbered v) {p : Pos} (hp : p ∈ vcells v)
    (hm : val v p ≠ -1) : 0 ≤ val v p := by
  rw [h p hp hm]; omega

theorem clears_lower {v : View} {clicks : List Pos} (h : ClearsBoard v clicks) :
    (isolated v).card + components (zeros v) ≤ clicks.length := by
  obtain ⟨L, -, hL, hap, hcov⟩ := calOp_reps v
  rw [components_eq_of_reps hL hap hcov]
  have hsome : ∀ z ∈ zeros v, ∃ p ∈ clicks, val v p = 0 ∧ Linked (zeros v) p z := by
    intro z hz
    obtain ⟨hz1, hz2⟩ := Finset.mem_filter.mp hz
    obtain ⟨p, hp, hr⟩ := h.2 z hz1 (by omega)
    exact ⟨p, hp, hr.zero (h.1 p hp).1 hz2⟩
  choose! f hf using hsome
  -- the images of the representatives are distinct zero clicks
  have hnd : (L.map f).Nodup := by
    rw [List.nodup_iff_pairwise_ne, List.pairwise_map]
    refine hap.imp_of_mem ?_
    intro a b ha hb hab heq
    exact hab ((hf a (hL a ha)).2.2.symm.trans (heq ▸ (hf b (hL b hb)).2.2))
  have hdisj : Disjoint (isolated v) (L.map f).toFinset := by
    rw [Finset.disjoint_left]
    intro p hp hp'
    rw [List.mem_toFinset, List.mem_map] at hp'
    obtain ⟨z, hz, rfl⟩ := hp'
    have h1 := (hf z (hL z hz)).2.1
    have h2 := (Finset.mem_filter.mp hp).2.1
    omega
  have hsub : isolated v ∪ (L.map f).toFinset ⊆ clicks.toFinset := by
    intro p hp
    rw [List.mem_toFinset]
    rcases Finset.mem_union.mp hp with hp | hp
    · obtain ⟨hp1, hp2, hp3⟩ := Finset.mem_filter.mp hp
      obtain ⟨q, hq, hr⟩ := h.2 p hp1 (by omega)
      rcases hr.cases' with rfl | ⟨z, hz, hz0, hn, _⟩
      · exact hq
      · exact absurd hz0 (hp3 z (hz.mem (h.1 q hq).1) hn.symm)
    · rw [List.mem_toFinset, List.mem_map] at hp
      obtain ⟨z, hz, rfl⟩ := hp
      exact (hf z (hL z hz)).1
  have := Finset.card_le_card hsub
  rw [Finset.card_union_of_disjoint hdisj, List.toFinset_card_of_nodup hnd, List.length_map] at this
  exact this.trans (List.toFinset_card_le clicks)

theorem clears_upper {v : View} (hv : Numbered v) : ∃ clicks, ClearsBoard v clicks ∧
    clicks.length = (isolated v).card + components (zeros v) := by
  obtain ⟨L, -, hL, hap, hcov⟩ := calOp_reps v
  refine ⟨(isolated v).toList ++ L, ⟨?_, ?_⟩, ?_⟩
  · intro p hp
    rcases List.mem_append.mp hp with hp | hp
    · rw [Finset.mem_toList] at hp
      obtain ⟨h1, h2, _⟩ := Finset.mem_filter.mp hp
      exact ⟨h1, by omega⟩
    · obtain ⟨h1, h2⟩ := Finset.mem_filter.mp (hL p hp)
      exact ⟨h1, by omega⟩
  · intro q hq hm
    have h0 := numbered_nonneg hv hq hm
    by_cases hz : ∃ z ∈ vcells v, Near q z ∧ val v z = 0
    · obtain ⟨z, hz1, hn, hz0⟩ := hz
      have hzz : z ∈ zeros v := Finset.mem_filter.mpr ⟨hz1, hz0⟩
      obtain ⟨p, hp, hl⟩ := hcov z hzz
      exact ⟨p, by simp [hp], .spread (Reveals.of_linked (hL p hp) hl) hz0 hq hn.symm⟩
    · push Not at hz
      refine ⟨q, ?_, .self⟩
      rw [List.mem_append, Finset.mem_toList]
      left
      refine Finset.mem_filter.mpr ⟨hq, ?_, hz⟩
      have := hz q hq (near_refl q)
      omega
  · rw [List.length_append, Finset.length_toList, components_eq_of_reps hL hap hcov]

end Ms
