import Verif.Properties.Poss
import Verif.Lemmas.MarkAny

/-! # C32: probabilities by position, and the chance of opening an empty area -/

namespace Ms.Properties
open Ms Ms.Spec BigNumber

theorem chance_nonneg {g : Board} {m : Nat} {q : Pos} {x : ℚ} (h : chance g m q = some x) : 0 ≤ x := by
  unfold chance at h
  split at h
  · simp at h
  · simp only [Option.some.injEq] at h
    rw [← h]; positivity

/-- C32: `cal_possibility_onboard` gives the same results by position: 1 for cells marked as mines, the exact
probability for covered cells, 0 for all others. -/
theorem cal_possibility_onboard_exact (g : Board) (hne : g ≠ []) (hv : ∀ p ∈ grid g.row g.col, 0 ≤ g.get p.1 p.2)
    (hc : ∃ τ, ReachConsistent g τ) (minenum : ℚ) :
    ∃ lo hi, IsLeast {k | (layouts g k).Nonempty} lo ∧ IsGreatest {k | (layouts g k).Nonempty} hi ∧
    ∀ m, MinesLeft g minenum lo hi m →
      (m < lo → calPossibilityOnboard g minenum = some (.error 3)) ∧
      (lo ≤ m → ∃ P, calPossibilityOnboard g minenum = some (.ok (P, lo + (markedSet g).card, m + (markedSet g).card,
          min hi (m + Set.ncard {q | IsCovered g q ∧ ¬ Fringe g q}) + (markedSet g).card)) ∧
        P.length = g.row ∧ (∀ l ∈ P, l.length = g.col) ∧
        ∀ i j, i < g.row → j < g.col → (P.getD i []).getD j none =
          if g.get i j = 11 then some 1 else if g.get i j = 10 then chance g m (i, j) else some 0) := by
  obtain ⟨lo, hi, h1, h2, h3⟩ := cal_possibility_exact g hne hv hc minenum
  refine ⟨lo, hi, h1, h2, fun m hm => ⟨fun hlt => ?_, fun hle => ?_⟩⟩
  · unfold calPossibilityOnboard; rw [(h3 m hm).1 hlt]
  · obtain ⟨r, r1, r2, r3, r4, r5, r6, r7, -⟩ := (h3 m hm).2 hle
    refine ⟨_, by unfold calPossibilityOnboard; rw [r1]; simp only; rw [r7], by simp, ?_, ?_⟩
    · intro l hl
      obtain ⟨i, -, rfl⟩ := List.mem_map.mp hl
      simp
    · intro i j hi' hj'
      rw [List.getD_eq_getElem?_getD, List.getD_eq_getElem?_getD, List.getElem?_map, List.getElem?_range hi']
      simp only [Option.map_some, Option.getD_some]
      rw [List.getElem?_map, List.getElem?_range hj']
      simp only [Option.map_some, Option.getD_some]
      cases hf : r.front.reverse.find? fun e => decide (e.1 = (i, j)) with
      | some e =>
        have he1 : e.1 = (i, j) := by simpa using List.find?_some hf
        have he2 : e ∈ r.front := by simpa using List.mem_of_find?_eq_some hf
        have hfr : Fringe g (i, j) := (r3 _).mp (List.mem_map.mpr ⟨e, he2, he1⟩)
        have hg : g.get i j = 10 := hfr.1.2
        have hch := r4 e he2
        rw [he1] at hch
        simp only
        rw [if_neg (by omega), if_neg (by omega : ¬ g.get i j = 11), if_pos hg]
        cases hx : e.2 with
        | none => simp only [hg]; rw [← hch, hx]; simp
        | some x =>
          have : ¬ x < -1/2 := by
            have := chance_nonneg (hch.symm.trans hx)
            intro hcon
            linarith
          rw [← hch, hx]
          simp [hg, this]
      | none =>
        have hnf : ¬ Fringe g (i, j) := by
          intro hfr
          obtain ⟨e, he, he1⟩ := List.mem_map.mp ((r3 _).mpr hfr)
          rw [List.find?_eq_none] at hf
          exact hf e (by simpa using he) (by simpa using he1)
        have hlow : (-1 : ℚ) < -1 / 2 := by norm_num
        simp only [hlow, decide_true, and_true, if_true]
        by_cases g11 : g.get i j = 11
        · rw [if_pos g11, if_pos g11]
        · rw [if_neg g11, if_neg g11]
          by_cases g10 : g.get i j = 10
          · rw [if_pos g10, if_pos g10]
            exact r5 (i, j) ⟨by simp [grid, hi', hj'], g10⟩ hnf
          · rw [if_neg g10, if_neg g10]
            split <;> rfl

/-- `h` is `g` with the covered cells of `D` marked as safe. -/
structure Ruled (g : Board) (D : Finset Pos) (h : Board) : Prop where
  row : h.row = g.row
  col : h.col = g.col
  get : ∀ p ∈ grid g.row g.col, h.get p.1 p.2 = if p ∈ D then 12 else g.get p.1 p.2
  sub : D ⊆ coveredSet g

section
variable {g h : Board} {D : Finset Pos} (R : Ruled g D h)
include R

theorem Ruled.number (p : Pos) : IsNumber h p ↔ IsNumber g p := by
  unfold IsNumber
  rw [R.row, R.col]
  constructor
  · rintro ⟨h1, h2, h3⟩
    rw [R.get p h1] at h2 h3
    split at h3
    · omega
    · rename_i hd
      rw [if_neg hd] at h2
      exact ⟨h1, h2, h3⟩
  · rintro ⟨h1, h2, h3⟩
    have : p ∉ D := fun hd => by
      have := (mem_coveredSet.mp (R.sub hd)).2
      omega
    rw [R.get p h1, if_neg this]
    exact ⟨h1, h2, h3⟩

theorem Ruled.covered (p : Pos) : IsCovered h p ↔ IsCovered g p ∧ p ∉ D := by
  unfold IsCovered
  rw [R.row, R.col]
  constructor
  · rintro ⟨h1, h2⟩
    rw [R.get p h1] at h2
    split at h2
    · omega
    · rename_i hd; exact ⟨⟨h1, h2⟩, hd⟩
  · rintro ⟨⟨h1, h2⟩, h3⟩
    rw [R.get p h1, if_neg h3]
    exact ⟨h1, h2⟩

theorem Ruled.marked : markedSet h = markedSet g := by
  ext p
  unfold markedSet
  rw [R.row, R.col]
  simp only [Finset.mem_filter]
  constructor
  · rintro ⟨h1, h2⟩
    rw [R.get p h1] at h2
    split at h2
    · omega
    · exact ⟨h1, h2⟩
  · rintro ⟨h1, h2⟩
    have : p ∉ D := fun hd => by
      have := (mem_coveredSet.mp (R.sub hd)).2
      omega
    rw [R.get p h1, if_neg this]
    exact ⟨h1, h2⟩

theorem Ruled.mines (p : Pos) (σ : Pos → Bool) (hσ : ∀ q ∈ D, σ q = false) : minesNear h σ p = minesNear g σ p := by
  unfold minesNear
  rw [R.row, R.col]
  congr 1
  apply Finset.filter_congr
  intro q hq
  rw [R.get q hq]
  by_cases hd : q ∈ D
  · have := (mem_coveredSet.mp (R.sub hd)).2
    rw [if_pos hd, hσ q hd, this]
    simp
  · rw [if_neg hd]

theorem Ruled.value (p : Pos) (hp : IsNumber g p) : h.get p.1 p.2 = g.get p.1 p.2 := by
  have : p ∉ D := fun hd => by
    have := (mem_coveredSet.mp (R.sub hd)).2
    have := hp.2.2
    omega
  rw [R.get p hp.1, if_neg this]

theorem Ruled.shares {a b : Pos} (hs : SharesNumbers h a b) : SharesNumbers g a b := by
  induction hs with
  | refl => exact .refl
  | tail _ h2 ih =>
    obtain ⟨h1, n, h2, h3⟩ := h2
    exact ih.tail ⟨((R.covered _).mp h1).1, n, (R.number n).mp h2, h3⟩

theorem Ruled.reach {p : Pos} (hr : InReach g p) : InReach h p := by
  intro l hl hq
  apply hr l hl
  intro q hql
  obtain ⟨a, h1, h2, h3⟩ := hq q hql
  exact ⟨a, ((R.covered a).mp h1).1, h2, R.shares h3⟩

open Classical in
/-- The layouts of the board with safe cells are the layouts of the board without mines there, provided there is one. -/
theorem Ruled.layouts (hr : ∀ p, IsNumber g p → InReach g p) (m : Nat) :
    ((Spec.layouts g m).filter fun A => Disjoint A D) ⊆ Spec.layouts h m ∧
    (((Spec.layouts g m).filter fun A => Disjoint A D).Nonempty →
      Spec.layouts h m = (Spec.layouts g m).filter fun A => Disjoint A D) := by
  have key : ∀ A : Finset Pos, Disjoint A D → ∀ q ∈ D, (decide (q ∈ A)) = false := by
    intro A hA q hq
    simp only [decide_eq_false_iff_not]
    exact fun h1 => Finset.disjoint_left.mp hA h1 hq
  have sub : ((Spec.layouts g m).filter fun A => Disjoint A D) ⊆ Spec.layouts h m := by
    intro A hA
    unfold Spec.layouts at hA ⊢
    simp only [Finset.mem_filter, Finset.mem_powerset] at hA ⊢
    obtain ⟨⟨h1, h2, h3⟩, h4⟩ := hA
    refine ⟨fun q hq => ?_, h2, fun p hp ⟨q, hq, hn⟩ _ => ?_⟩
    · exact mem_coveredSet.mpr ((R.covered q).mpr ⟨mem_coveredSet.mp (h1 hq), Finset.disjoint_left.mp h4 hq⟩)
    · have hp' := (R.number p).mp hp
      rw [R.value p hp', R.mines p _ (key A h4)]
      exact h3 p hp' ⟨q, ((R.covered q).mp hq).1, hn⟩ (hr p hp')
  refine ⟨sub, fun ⟨A0, hA0⟩ => ?_⟩
  refine le_antisymm (fun A hA => ?_) sub
  unfold Spec.layouts at hA hA0 ⊢
  simp only [Finset.mem_filter, Finset.mem_powerset] at hA hA0 ⊢
  obtain ⟨⟨a1, a2, a3⟩, a4⟩ := hA0
  obtain ⟨h1, h2, h3⟩ := hA
  have hcov : ∀ q ∈ A, IsCovered g q ∧ q ∉ D := fun q hq => (R.covered q).mp (mem_coveredSet.mp (h1 hq))
  have hdis : Disjoint A D := Finset.disjoint_left.mpr fun q hq => (hcov q hq).2
  refine ⟨⟨fun q hq => mem_coveredSet.mpr (hcov q hq).1, h2, fun p hp hq hrp => ?_⟩, hdis⟩
  have hp' := (R.number p).mpr hp
  by_cases hq' : ∃ q, IsCovered h q ∧ Near p q
  · have := h3 p hp' hq' (R.reach hrp)
    rw [R.value p hp, R.mines p _ (key A hdis)] at this
    exact this
  · rw [a3 p hp hq hrp, ← R.mines p _ (key A0 a4), ← R.mines p _ (key A hdis)]
    congr 1
    exact minesNear_finished hq' _ _

end

theorem Ruled.set {g h : Board} {D : Finset Pos} (R : Ruled g D h) {r c : Nat} (hrect : Rect h r c) {q : Pos}
    (hq : IsCovered g q) : Ruled g (insert q D) (h.set q.1 q.2 12) := by
  have hqg : q ∈ grid g.row g.col := hq.1
  have hgr := hqg
  rw [← R.row, ← R.col] at hgr
  simp only [grid, Finset.mem_product, Finset.mem_range] at hgr
  have hr : h.row = r := hrect.row_eq
  have hcl : h.col = c := hrect.col_eq (by omega)
  have h2 := rect_set hrect q.1 q.2 12
  refine ⟨?_, ?_, fun p hp => ?_, ?_⟩
  · rw [h2.row_eq, ← R.row, hr]
  · rw [h2.col_eq (by omega), ← R.col, hcl]
  · rw [get_set hrect (by omega) (by omega), R.get p hp]
    by_cases hpq : p = q
    · subst hpq; simp
    · rw [if_neg (fun hh => hpq (Prod.ext hh.1 hh.2))]
      simp [hpq]
  · rw [Finset.insert_subset_iff]
    exact ⟨mem_coveredSet.mpr hq, R.sub⟩

/-- Without negative right-hand sides and with a number of mines (not a density) the engine never panics. -/
theorem cal_possibility_total (g : Board) (hne : g ≠ []) (hv : ∀ p ∈ grid g.row g.col, 0 ≤ g.get p.1 p.2)
    (hr : ∀ p, IsNumber g p → (∃ q, IsCovered g q ∧ Near p q) → (minesNear g (fun _ => false) p : ℤ) ≤ g.get p.1 p.2)
    (minenum : ℚ) (h1 : 1 ≤ minenum) : calPossibility g minenum ≠ none := by
  by_cases hc : ∃ τ, ReachConsistent g τ
  · obtain ⟨lo, hi, -, -, h3⟩ := cal_possibility_exact g hne hv hc minenum
    by_cases hm : ⌊minenum⌋ < (markedSet g).card
    · rw [cal_possibility_too_few_mines g hne hv hc minenum h1 hm]; simp
    · have hml : MinesLeft g minenum lo hi (⌊minenum⌋.toNat - (markedSet g).card) := by
        unfold MinesLeft
        rw [if_pos h1]
        omega
      obtain ⟨a, b⟩ := h3 _ hml
      by_cases hlo : ⌊minenum⌋.toNat - (markedSet g).card < lo
      · rw [a hlo]; simp
      · obtain ⟨r, hr, -⟩ := b (by omega)
        rw [hr]; simp
  · rw [cal_possibility_contradiction g hne hr hc]; simp

open Classical in
/-- One evaluation inside `cal_is_op_possibility_cells`. -/
theorem open_step {g h : Board} {D : Finset Pos} (R : Ruled g D h) (hg : g ≠ []) (hh : h ≠ [])
    (hv : ∀ p ∈ grid g.row g.col, 0 ≤ g.get p.1 p.2) (hr : ∀ p, IsNumber g p → InReach g p) {minenum : ℚ}
    (h1 : 1 ≤ minenum) {m : Nat} (hm : (m : ℤ) + (markedSet g).card = ⌊minenum⌋) (hl : (layouts g m).Nonempty)
    {q : Pos} (hq : IsCovered h q) :
    (∃ e, calPossibilityOnboard h minenum = some (.error e) ∧ ((layouts g m).filter fun A => Disjoint A D) = ∅) ∨
    ∃ P rng, calPossibilityOnboard h minenum = some (.ok (P, rng)) ∧
      (((layouts g m).filter fun A => Disjoint A D).Nonempty → (P.getD q.1 []).getD q.2 none =
        some ((((layouts g m).filter fun A => Disjoint A D ∧ q ∈ A).card : ℚ) /
          (((layouts g m).filter fun A => Disjoint A D).card : ℚ))) := by
  have hv' : ∀ p ∈ grid h.row h.col, 0 ≤ h.get p.1 p.2 := by
    intro p hp
    rw [R.row, R.col] at hp
    rw [R.get p hp]
    split
    · omega
    · exact hv p hp
  obtain ⟨L1, L2⟩ := R.layouts hr m
  by_cases hc : ∃ τ, ReachConsistent h τ
  · obtain ⟨lo, hi, i1, i2, i3⟩ := cal_possibility_onboard_exact h hh hv' hc minenum
    have hml : MinesLeft h minenum lo hi m := by
      unfold MinesLeft
      rw [if_pos h1, R.marked]
      exact hm
    obtain ⟨a, b⟩ := i3 m hml
    by_cases hlo : m < lo
    · left
      refine ⟨3, a hlo, ?_⟩
      by_contra hcon
      have hne := Finset.nonempty_iff_ne_empty.mpr hcon
      have h4 : (layouts h m).Nonempty := hne.mono L1
      have := i1.2 h4
      omega
    · right
      obtain ⟨P, p1, -, -, p2⟩ := b (by omega)
      refine ⟨P, _, p1, fun hne => ?_⟩
      have hqg := hq.1
      simp only [grid, Finset.mem_product, Finset.mem_range] at hqg
      rw [p2 q.1 q.2 hqg.1 hqg.2, if_neg (by rw [hq.2]; omega), if_pos hq.2]
      unfold chance
      rw [L2 hne, if_neg (Nat.pos_iff_ne_zero.mp (Finset.card_pos.mpr hne)), Finset.filter_filter]
  · left
    refine ⟨1, ?_, ?_⟩
    · unfold calPossibilityOnboard
      rw [cal_possibility_contradiction h hh ?_ hc]
      rintro p hp ⟨a, ha, hn⟩
      have hp' := (R.number p).mp hp
      obtain ⟨A, hA⟩ := hl
      unfold layouts at hA
      simp only [Finset.mem_filter, Finset.mem_powerset] at hA
      have := hA.2.2 p hp' ⟨a, ((R.covered a).mp ha).1, hn⟩ (hr p hp')
      rw [R.value p hp', R.mines p _ (fun _ _ => rfl), this]
      unfold minesNear
      exact_mod_cast Finset.card_le_card (Finset.monotone_filter_right _ fun q hq => by
        rintro ⟨h1, h2 | h2⟩
        · exact ⟨h1, .inl h2⟩
        · simp at h2)
    · by_contra hcon
      obtain ⟨A, hA⟩ := Finset.nonempty_iff_ne_empty.mpr hcon
      have := L1 hA
      unfold layouts at this
      simp only [Finset.mem_filter] at this
      exact hc ⟨_, this.2.2⟩

open Classical in
/-- The accumulated probability agrees with the fraction of layouts without mines in `D`; once that is 0, a NaN is
possible. -/
def Acc (g : Board) (m : Nat) (D : Finset Pos) (x : Option ℚ) : Prop :=
  x = some ((((layouts g m).filter fun A => Disjoint A D).card : ℚ) / ((layouts g m).card : ℚ)) ∨
  (((layouts g m).filter fun A => Disjoint A D) = ∅ ∧ x = none)

open Classical in
theorem split_insert (F : Finset (Finset Pos)) (D : Finset Pos) (q : Pos) :
    ((F.filter fun A => Disjoint A D).card : ℚ) =
      (F.filter fun A => Disjoint A D ∧ q ∈ A).card + (F.filter fun A => Disjoint A (insert q D)).card := by
  have hd : Disjoint (F.filter fun A => Disjoint A D ∧ q ∈ A) (F.filter fun A => Disjoint A (insert q D)) := by
    rw [Finset.disjoint_filter]
    intro A _ h2 h3
    rw [Finset.disjoint_insert_right] at h3
    exact h3.1 h2.2
  have he : (F.filter fun A => Disjoint A D) =
      (F.filter fun A => Disjoint A D ∧ q ∈ A) ∪ (F.filter fun A => Disjoint A (insert q D)) := by
    ext A
    rw [Finset.mem_union, Finset.mem_filter, Finset.mem_filter, Finset.mem_filter, Finset.disjoint_insert_right]
    by_cases hq : q ∈ A <;> simp [hq]
  rw [he, Finset.card_union_of_disjoint hd, Nat.cast_add]

theorem openLoop_spec {g : Board} (hg : g ≠ [])
    (hv : ∀ p ∈ grid g.row g.col, 0 ≤ g.get p.1 p.2 ∧ g.get p.1 p.2 ≤ 12) (hr : ∀ p, IsNumber g p → InReach g p)
    {minenum : ℚ} (h1 : 1 ≤ minenum) {m : Nat} (hm : (m : ℤ) + (markedSet g).card = ⌊minenum⌋)
    (hl : (layouts g m).Nonempty) (c : Pos) {r k : Nat} : ∀ (qs : List Pos) (D : Finset Pos) (h : Board) (p : Option ℚ),
    qs.Nodup → (∀ q ∈ qs, q ∈ grid g.row g.col ∧ q ∉ D) → Ruled g D h → Rect h r k → h ≠ [] → Acc g m D p →
    ∃ x, openLoop g minenum c qs h p = some x ∧
      ((∃ q ∈ qs, (g.get q.1 q.2 < 10 ∧ q = c) ∨ g.get q.1 q.2 = 11) → x = some 0) ∧
      ((¬ ∃ q ∈ qs, (g.get q.1 q.2 < 10 ∧ q = c) ∨ g.get q.1 q.2 = 11) →
        Acc g m (D ∪ (qs.filter fun q => g.get q.1 q.2 = 10).toFinset) x) := by
  classical
  intro qs
  induction qs with
  | nil =>
    intro D h p _ _ _ _ _ hp
    exact ⟨p, rfl, by simp, fun _ => by simpa using hp⟩
  | cons q qs ih =>
    intro D h p hnd hq R hrect hh hp
    have hqg := (hq q (by simp)).1
    rw [openLoop]
    by_cases b1 : (g.get q.1 q.2 < 10 ∧ q = c) ∨ g.get q.1 q.2 = 11
    · rw [if_pos b1]
      refine ⟨_, rfl, fun _ => rfl, fun hno => absurd ⟨q, by simp, b1⟩ hno⟩
    · rw [if_neg b1]
      have hex : (∃ a ∈ q :: qs, (g.get a.1 a.2 < 10 ∧ a = c) ∨ g.get a.1 a.2 = 11) ↔
          ∃ a ∈ qs, (g.get a.1 a.2 < 10 ∧ a = c) ∨ g.get a.1 a.2 = 11 := by
        rw [List.exists_mem_cons_iff]
        simp only [b1, false_or]
      rw [hex]
      by_cases b2 : g.get q.1 q.2 = 12 ∨ g.get q.1 q.2 < 10
      · rw [if_pos b2]
        have e : (q :: qs).filter (fun q => decide (g.get q.1 q.2 = 10)) =
            qs.filter fun q => decide (g.get q.1 q.2 = 10) := by
          rw [List.filter_cons_of_neg]
          simp only [decide_eq_true_eq]
          omega
        rw [e]
        exact ih D h p (List.nodup_cons.mp hnd).2 (fun a ha => hq a (by simp [ha])) R hrect hh hp
      · rw [if_neg b2]
        have h10 : g.get q.1 q.2 = 10 := by
          have := (hv q hqg).2
          push Not at b1
          omega
        have hcg : IsCovered g q := ⟨hqg, h10⟩
        have hch : IsCovered h q := (R.covered q).mpr ⟨hcg, (hq q (by simp)).2⟩
        have e : D ∪ ((q :: qs).filter (fun q => decide (g.get q.1 q.2 = 10))).toFinset =
            insert q D ∪ (qs.filter fun q => decide (g.get q.1 q.2 = 10)).toFinset := by
          rw [List.filter_cons_of_pos (by simpa using h10), List.toFinset_cons]
          ext a; simp
        rw [e]
        rcases open_step R hg hh (fun p hp => (hv p hp).1) hr h1 hm hl hch with ⟨er, s1, s2⟩ | ⟨P, rg, s1, s2⟩
        · rw [s1]
          refine ⟨some 0, rfl, fun _ => rfl, fun _ => ?_⟩
          left
          have : ((layouts g m).filter fun A => Disjoint A
              (insert q D ∪ (qs.filter fun q => decide (g.get q.1 q.2 = 10)).toFinset)) = ∅ := by
            rw [Finset.filter_eq_empty_iff] at s2 ⊢
            intro A hA hd
            apply s2 hA
            rw [Finset.disjoint_left] at hd ⊢
            intro a ha hb
            exact hd ha (by simp [hb])
          rw [this]; simp
        · rw [s1]
          simp only
          refine ih (insert q D) _ _ (List.nodup_cons.mp hnd).2 (fun a ha => ⟨(hq a (by simp [ha])).1, ?_⟩)
            (R.set hrect hcg) (rect_set hrect _ _ _) ?_ ?_
          · rw [Finset.mem_insert, not_or]
            refine ⟨?_, (hq a (by simp [ha])).2⟩
            rintro rfl
            exact (List.nodup_cons.mp hnd).1 ha
          · intro he
            have := congrArg List.length he
            unfold Board.set at this
            rw [List.length_modify] at this
            exact hh (List.length_eq_zero_iff.mp this)
          · have hsplit := split_insert (layouts g m) D q
            by_cases hne : ((layouts g m).filter fun A => Disjoint A D).Nonempty
            · have hp' : p = some ((((layouts g m).filter fun A => Disjoint A D).card : ℚ) / ((layouts g m).card : ℚ)) := by
                rcases hp with hp | ⟨hp, -⟩
                · exact hp
                · exact absurd hp (Finset.nonempty_iff_ne_empty.mp hne)
              left
              rw [hp', s2 hne]
              simp only [Option.bind_some, Option.map_some, Option.some.injEq]
              have n1 : (((layouts g m).filter fun A => Disjoint A D).card : ℚ) ≠ 0 := by
                exact_mod_cast Nat.pos_iff_ne_zero.mp (Finset.card_pos.mpr hne)
              have n2 : ((layouts g m).card : ℚ) ≠ 0 := by
                exact_mod_cast Nat.pos_iff_ne_zero.mp (Finset.card_pos.mpr hl)
              have e3 : (((layouts g m).filter fun A => Disjoint A (insert q D)).card : ℚ) =
                  ((layouts g m).filter fun A => Disjoint A D).card -
                  ((layouts g m).filter fun A => Disjoint A D ∧ q ∈ A).card := by rw [hsplit]; ring
              rw [e3]
              field_simp
            · rw [Finset.not_nonempty_iff_eq_empty] at hne
              have hz : ((layouts g m).filter fun A => Disjoint A (insert q D)) = ∅ := by
                rw [Finset.filter_eq_empty_iff] at hne ⊢
                intro A hA hd
                rw [Finset.disjoint_insert_right] at hd
                exact hne hA hd.2
              have hp0 : p = some 0 ∨ p = none := by
                rcases hp with hp | ⟨-, hp⟩
                · left; rw [hp, hne]; simp
                · right; exact hp
              unfold Acc
              rw [hz]
              rcases hp0 with rfl | rfl
              · cases (P.getD q.1 []).getD q.2 none with
                | none => right; exact ⟨rfl, rfl⟩
                | some x => left; simp
              · right; exact ⟨rfl, rfl⟩

/-- C32: `cal_is_op_possibility_cells` returns, for each cell, the fraction of all layouts in which a click there opens an
empty area (0 for shown cells and next to marked mines).  When that fraction is 0 it may return NaN instead. -/
theorem cal_is_op_possibility_exact (g : Board) {r k : Nat} (hrect : Rect g r k) (hg : g ≠ [])
    (hv : ∀ p ∈ grid g.row g.col, 0 ≤ g.get p.1 p.2 ∧ g.get p.1 p.2 ≤ 12) (hr : ∀ p, IsNumber g p → InReach g p)
    (minenum : ℚ) (h1 : 1 ≤ minenum) (m : Nat) (hm : (m : ℤ) + (markedSet g).card = ⌊minenum⌋)
    (hl : (layouts g m).Nonempty) (cs : List Pos) (hcs : ∀ c ∈ cs, c ∈ grid g.row g.col) :
    ∃ out, calIsOpPossibility g minenum cs = some out ∧
      List.Forall₂ (fun c x => x = some (openChance g m c) ∨ (openChance g m c = 0 ∧ x = none)) cs out := by
  classical
  unfold calIsOpPossibility
  rw [if_neg hg]
  apply mapM_forall₂
  intro c hc
  have hcg := hcs c hc
  have hacc : Acc g m ∅ (some 1) := by
    left
    have : (layouts g m).filter (fun A => Disjoint A (∅ : Finset Pos)) = layouts g m := by
      rw [Finset.filter_true_of_mem]; intro A _; simp
    rw [this, div_self]
    exact_mod_cast Nat.pos_iff_ne_zero.mp (Finset.card_pos.mpr hl)
  obtain ⟨x, x1, x2, x3⟩ := openLoop_spec hg hv hr h1 hm hl c (block g.row g.col c.1 c.2) ∅ g (some 1) (nodup_block _ _ _ _)
    (fun q hq => ⟨(near_mem_block.mp hq).1, by simp⟩)
    ⟨rfl, rfl, fun p _ => by simp, by simp⟩ hrect hg hacc
  refine ⟨x, x1, ?_⟩
  have hiff : (∃ q ∈ block g.row g.col c.1 c.2, (g.get q.1 q.2 < 10 ∧ q = c) ∨ g.get q.1 q.2 = 11) ↔
      (g.get c.1 c.2 < 10 ∨ ∃ q ∈ grid g.row g.col, Near c q ∧ g.get q.1 q.2 = 11) := by
    constructor
    · rintro ⟨q, hq, ⟨h2, rfl⟩ | h2⟩
      · exact .inl h2
      · exact .inr ⟨q, (near_mem_block.mp hq).1, (near_mem_block.mp hq).2, h2⟩
    · rintro (h2 | ⟨q, h2, h3, h4⟩)
      · exact ⟨c, near_mem_block.mpr ⟨hcg, by simp [Near]⟩, .inl ⟨h2, rfl⟩⟩
      · exact ⟨q, near_mem_block.mpr ⟨h2, h3⟩, .inr h4⟩
  unfold openChance
  by_cases hb : g.get c.1 c.2 < 10 ∨ ∃ q ∈ grid g.row g.col, Near c q ∧ g.get q.1 q.2 = 11
  · rw [if_pos hb]
    left
    exact x2 (hiff.mpr hb)
  · rw [if_neg hb]
    have hx := x3 fun hcon => hb (hiff.mp hcon)
    have hf : ((layouts g m).filter fun A => Disjoint A
        (∅ ∪ ((block g.row g.col c.1 c.2).filter fun q => g.get q.1 q.2 = 10).toFinset)) =
        (layouts g m).filter fun A => ∀ q ∈ A, ¬ Near c q := by
      apply Finset.filter_congr
      intro A hA
      have hAc : ∀ q ∈ A, IsCovered g q := by
        unfold layouts at hA
        simp only [Finset.mem_filter, Finset.mem_powerset] at hA
        exact fun q hq => mem_coveredSet.mp (hA.1 hq)
      rw [Finset.empty_union, Finset.disjoint_left]
      simp only [List.mem_toFinset, List.mem_filter, near_mem_block, decide_eq_true_eq, not_and]
      constructor
      · intro h2 q hq hn; exact h2 hq ⟨(hAc q hq).1, hn⟩ (hAc q hq).2
      · rintro h2 q hq ⟨-, hn⟩; exact absurd hn (h2 q hq)
    unfold Acc at hx
    rw [hf] at hx
    rcases hx with hx | ⟨hx, hx2⟩
    · left; exact hx
    · right
      rw [hx]
      exact ⟨by simp, hx2⟩

/-! ## concrete cases -/

/-- One number between covered cells: exactly one of the two cells next to it is a mine. -/
def exPoss : Board := [[10, 1, 10, 10, 10]]

theorem exPoss_consistent : Consistent exPoss (fun p => decide (p = (0, 0) ∨ p = (0, 4))) := by
  intro p hp
  have hg : p ∈ grid 1 5 := hp.1
  have h10 := hp.2.2
  have : ∀ p ∈ grid 1 5, Board.get exPoss p.1 p.2 < 10 →
      Board.get exPoss p.1 p.2 = minesNear exPoss (fun p => decide (p = (0, 0) ∨ p = (0, 4))) p := by decide +kernel
  exact this p hg h10

theorem exPoss_layouts : (layouts exPoss 2).Nonempty := by
  have hreach : ∀ p, IsNumber exPoss p → InReach exPoss p := fun p _ => inReach_small exPoss (by decide +kernel) p
  refine ⟨{(0, 0), (0, 4)}, (layouts_all exPoss hreach ?_ 2 _).mpr ⟨?_, by decide, ?_⟩⟩
  · intro p hp hno
    have h10 := hp.2.2
    have : ∀ p ∈ grid 1 5, Board.get exPoss p.1 p.2 < 10 → (0, 0) ∈ grid 1 5 ∧ Near p (0, 0) := by decide +kernel
    exact absurd ⟨by decide +kernel, by decide⟩ (hno (0, 0) (this p hp.1 h10).2)
  · have : ∀ q ∈ ({(0, 0), (0, 4)} : Finset Pos), q ∈ grid 1 5 ∧ Board.get exPoss q.1 q.2 = 10 := by decide +kernel
    exact this
  · have := exPoss_consistent
    simpa using this

/-- The hypotheses of the theorems hold for it, with two mines. -/
example : exPoss ≠ [] ∧ Rect exPoss 1 5 ∧ (∀ p ∈ grid exPoss.row exPoss.col, 0 ≤ exPoss.get p.1 p.2 ∧ exPoss.get p.1 p.2 ≤ 12) ∧
    (∃ τ, ReachConsistent exPoss τ) ∧ (∀ p, IsNumber exPoss p → InReach exPoss p) ∧ (layouts exPoss 2).Nonempty ∧
    MinesLeft exPoss 2 1 3 2 ∧ ((2 : Nat) : ℤ) + (markedSet exPoss).card = ⌊(2 : ℚ)⌋ := by
  have hreach : ∀ p, IsNumber exPoss p → InReach exPoss p := fun p _ => inReach_small exPoss (by decide +kernel) p
  have hm : (markedSet exPoss).card = 0 := by decide +kernel
  refine ⟨by decide, ⟨rfl, by decide⟩, by decide +kernel, ⟨_, fun p hp _ _ => exPoss_consistent p hp⟩, hreach, ?_, ?_, ?_⟩
  · exact exPoss_layouts
  · unfold MinesLeft
    rw [if_pos (by norm_num), hm]
    norm_num
  · rw [hm]; norm_num

/-- With two mines: each cell next to the number has a mine in half of the layouts, and so have the two others. -/
example : calPossibility exPoss 2 = some (.ok ⟨[((0, 0), some (1/2)), ((0, 2), some (1/2))], some (1/2), (1, 2, 3), 2⟩) := by
  decide +kernel

/-- A quarter of the five cells is one mine; it must be next to the number. -/
example : calPossibility exPoss (1/4) = some (.ok ⟨[((0, 0), some (1/2)), ((0, 2), some (1/2))], some 0, (1, 1, 3), 2⟩) := by
  decide +kernel

/-- Too many mines: the engine does not refuse, it returns NaN everywhere. -/
example : calPossibility exPoss 5 = some (.ok ⟨[((0, 0), none), ((0, 2), none)], none, (1, 5, 3), 2⟩) := by
  decide +kernel

/-- Too few mines, a contradiction, more marks than mines, more marks than the density allows (a panic). -/
example : calPossibility [[10, 1, 10, 10, 1, 10]] 1 = some (.error 3) ∧ calPossibility [[2, 10]] 2 = some (.error 1) ∧
    calPossibility [[11, 10, 11]] 1 = some (.error 17) ∧ calPossibility [[11, 10]] (1/3) = none := by
  decide +kernel

/-- By position, with a marked mine and a cell marked safe. -/
example : (calPossibilityOnboard [[11, 1, 12, 10, 1, 10]] 2).bind Except.toOption =
    some ([[some 1, some 0, some 0, some (1/2), some 0, some (1/2)]], 2, 2, 2) := by
  decide +kernel

/-- The chance of an opening; a shown cell and a cell next to a marked mine have none. -/
example : calIsOpPossibility exPoss 2 [(0, 0), (0, 1), (0, 4)] = some [some (1/2), some 0, some 0] ∧
    calIsOpPossibility [[10, 10, 10, 10]] 1 [(0, 0), (0, 1)] = some [some (1/2), some (1/4)] := by
  decide +kernel

/-- Finding: on a board where a mine is certain, the chance of an opening (0) comes out as NaN. -/
example : calIsOpPossibility [[10, 10]] 2 [(0, 0)] = some [none] := by decide +kernel

end Ms.Properties
