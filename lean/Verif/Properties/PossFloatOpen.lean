import Verif.Properties.PossFloat

/-! # C77: probabilities by position and opening chances in floating point -/

set_option exponentiation.threshold 400

namespace Ms.Properties
open Ms Ms.Spec BigNumber

theorem roundsAbs_fl64 : RoundsAbs fl64 := by
  intro x hx
  refine (fl64_err x).trans ?_
  rw [div_le_div_iff₀ (by norm_num) (by norm_num)]
  calc |x| * 2 ^ 51 ≤ 4 * 2 ^ 51 := mul_le_mul_of_nonneg_right hx (by norm_num)
    _ = 1 * 2 ^ 53 := by norm_num

theorem closeO_refl {δ : ℚ} (hδ : 0 ≤ δ) {v : ℚ} (hv : 0 ≤ v) : CloseO δ (some v) (some v) := by
  show |v - v| ≤ v * δ
  simp only [sub_self, abs_zero]
  exact mul_nonneg hv hδ

/-- C77: `cal_possibility_onboard` in floating point: by position, 1 for cells marked as mines, 0 for shown and safe cells, and
for covered cells the exact probability up to the relative error of `cal_possibility_float`. -/
theorem cal_possibility_onboard_float {fl : ℚ → ℚ} (hf : Rounds fl) (g : Board) (hne : g ≠ [])
    (hv : ∀ p ∈ grid g.row g.col, 0 ≤ g.get p.1 p.2) (hc : ∃ τ, ReachConsistent g τ) (hQ : (coveredSet g).card ≤ 789) (minenum : ℚ) :
    ∃ lo hi P, IsLeast {k | (layouts g k).Nonempty} lo ∧ IsGreatest {k | (layouts g k).Nonempty} hi ∧ Groups g P ∧
    ∀ m, MinesLeftF fl g minenum lo hi m →
      (m < lo → calPossibilityOnboardF fl g minenum = some (.error 3)) ∧
      (lo ≤ m → splitCount P ≤ 10 ^ 12 → ∃ R, calPossibilityOnboardF fl g minenum = some (.ok (R, lo + (markedSet g).card,
          m + (markedSet g).card, min hi (m + Set.ncard {q | IsCovered g q ∧ ¬ Fringe g q}) + (markedSet g).card)) ∧
        R.length = g.row ∧ (∀ l ∈ R, l.length = g.col) ∧
        ∀ i j, i < g.row → j < g.col →
          (g.get i j = 10 → CloseO (tolerance (splitCount P) (coveredSet g).card) (chance g m (i, j)) ((R.getD i []).getD j none)) ∧
          (g.get i j ≠ 10 → (R.getD i []).getD j none = some (if g.get i j = 11 then 1 else 0))) := by
  obtain ⟨lo, hi, P, h1, h2, h0, h3⟩ := cal_possibility_float hf g hne hv hc hQ minenum
  refine ⟨lo, hi, P, h1, h2, h0, fun m hm => ⟨fun hlt => ?_, fun hle hsp => ?_⟩⟩
  · unfold calPossibilityOnboardF; rw [(h3 m hm).1 hlt]
  · obtain ⟨r, r1, r2, r3, r4, r5, r6, r7, -⟩ := (h3 m hm).2 hle hsp
    refine ⟨_, by unfold calPossibilityOnboardF; rw [r1]; simp only; rw [r7], by simp, ?_, ?_⟩
    · intro l hl
      obtain ⟨i, -, rfl⟩ := List.mem_map.mp hl
      simp
    · intro i j hi' hj'
      rw [List.getD_eq_getElem?_getD, List.getD_eq_getElem?_getD, List.getElem?_map, List.getElem?_range hi']
      simp only [Option.map_some, Option.getD_some]
      rw [List.getElem?_map, List.getElem?_range hj']
      simp only [Option.map_some, Option.getD_some]
      cases hf : r.front.reverse.find? fun e => decide (e.1 = (i, j)) with
      | some e =>
        have he1 : e.1 = (i, j) := by simpa using List.find?_some hf
        have he2 : e ∈ r.front := by simpa using List.mem_of_find?_eq_some hf
        have hfr : Fringe g (i, j) := (r3 _).mp (List.mem_map.mpr ⟨e, he2, he1⟩)
        have hg : g.get i j = 10 := hfr.1.2
        have hch := r4 e he2
        rw [he1] at hch
        refine ⟨fun _ => ?_, fun hn => absurd hg hn⟩
        simp only
        rw [if_neg (by omega)]
        cases hx : e.2 with
        | none => simp only [hg]; rw [hx] at hch; simpa using hch
        | some x =>
          rw [hx] at hch
          have hx0 : ¬ x < -1/2 := by
            match hcc : chance g m (i, j) with
            | none => rw [hcc] at hch; exact hch.elim
            | some v =>
              rw [hcc] at hch
              have hvx : |x - v| ≤ v * tolerance (splitCount P) (coveredSet g).card := hch
              have hv0 := chance_nonneg hcc
              have ht := tolerance_lt hsp hQ
              have := (abs_le.mp hvx).1
              intro hcon
              nlinarith
          simpa [hg, hx0] using hch
      | none =>
        have hnf : ¬ Fringe g (i, j) := by
          intro hfr
          obtain ⟨e, he, he1⟩ := List.mem_map.mp ((r3 _).mpr hfr)
          rw [List.find?_eq_none] at hf
          exact hf e (by simpa using he) (by simpa using he1)
        have hlow : (-1 : ℚ) < -1 / 2 := by norm_num
        simp only [hlow, decide_true, and_true, if_true]
        constructor
        · intro g10
          rw [if_neg (by omega), if_pos g10]
          exact r5 (i, j) ⟨by simp [grid, hi', hj'], g10⟩ hnf
        · intro g10
          by_cases g11 : g.get i j = 11
          · rw [if_pos g11, if_pos g11]
          · rw [if_neg g11, if_neg g10, if_neg g11]
            split <;> rfl

/-- C77: numbers that no layout explains are `Err(1)` in floating point too. -/
theorem cal_possibility_contradiction_float (fl : ℚ → ℚ) (g : Board) (hne : g ≠ [])
    (hr : ∀ p, IsNumber g p → (∃ q, IsCovered g q ∧ Near p q) → (minesNear g (fun _ => false) p : ℤ) ≤ g.get p.1 p.2)
    (hc : ¬ ∃ τ, ReachConsistent g τ) (minenum : ℚ) :
    calPossibilityF fl g minenum = some (.error 1) := by
  obtain ⟨S, s1, h⟩ := refreshMatrixs_spec g
  have hok : ∀ B ∈ smallBlocks S, EnumOK B := by
    intro B hB
    have hB := (mem_smallBlocks.mp hB).1
    obtain ⟨g1, g2, g3, g4⟩ := h.good B hB
    refine ⟨g1, ?_, g2, g3, g4, h.weight B hB, fun r hr' => ?_⟩
    · have := h.nodup
      unfold sysCells at this
      rw [List.nodup_flatMap] at this
      exact this.1 B hB
    · obtain ⟨p, hp, ⟨q, hq, -⟩, e⟩ := h.rowOf B hB r hr'
      have h1 := mem_numberCells.mp hp
      have h2 := hr p h1.1 h1.2
      rw [e, rhsOf]
      rw [minesNear_eq] at h2
      have h3 : ((unknownsOf g p).filter fun _ => false) = [] := by simp
      push_cast at h2
      omega
  have hun : ∃ B ∈ smallBlocks S, ∀ σ, ¬ SolvesB σ B := by
    by_contra hcon
    push Not at hcon
    obtain ⟨τ, hτ⟩ := glue _ (small_sub h.nodup) hcon
    exact hc ⟨τ, (reach_iff_solves h τ).mpr hτ⟩
  have hlim : (S.filter fun B => ¬ ENUM_LIMIT < B.x.length) = smallBlocks S := rfl
  unfold calPossibilityF
  rw [if_neg hne]
  simp only [s1, hlim, possTables_unsat _ hok (fun B hB => (mem_smallBlocks.mp hB).2) hun, Option.pure_def,
    Option.bind_eq_bind, Option.bind_some]

theorem groups_card {g : Board} {P : List (List Pos)} (h : Groups g P) : P.flatten.length = Set.ncard {q | Fringe g q} := by
  have e : {q | Fringe g q} = (P.flatten.toFinset : Set Pos) := by
    ext q
    simp only [Set.mem_ofPred_eq, List.coe_toFinset]
    exact (h.cells q).symm
  rw [e, Set.ncard_coe_finset, List.toFinset_card_of_nodup h.once]

/-- Ruling cells out does not enlarge the set of cells next to numbers. -/
theorem Ruled.splits {g h : Board} {D : Finset Pos} (R : Ruled g D h) {P : List (List Pos)} (hP : Groups h P) {F : Nat}
    (hF : Set.ncard {q | Frontier g q} ≤ F) : splitCount P ≤ 2 ^ F := by
  refine (splitCount_le P).trans (Nat.pow_le_pow_right (by norm_num) ?_)
  rw [groups_card hP]
  refine le_trans (Set.ncard_le_ncard ?_ ?_) hF
  · rintro q ⟨h1, p, h2, -, h3⟩
    exact ⟨((R.covered q).mp h1).1, p, (R.number p).mp h2, h3⟩
  · refine Set.Finite.subset (Finset.finite_toSet (coveredSet g)) ?_
    rintro q ⟨h1, -⟩
    exact mem_coveredSet.mpr h1

open Classical in
theorem chance_le_one {g : Board} {m : Nat} {q : Pos} {x : ℚ} (h : chance g m q = some x) : x ≤ 1 := by
  unfold chance at h
  split at h
  · simp at h
  · rename_i h0
    simp only [Option.some.injEq] at h
    rw [← h]
    apply div_le_one_of_le₀ _ (by positivity)
    exact_mod_cast Finset.card_le_card (Finset.filter_subset _ _)

open Classical in
/-- One evaluation inside `cal_is_op_possibility_cells`, in floating point. -/
theorem open_step_float {fl : ℚ → ℚ} (hf : Rounds fl) {g h : Board} {D : Finset Pos} (R : Ruled g D h) (hh : h ≠ [])
    (hv : ∀ p ∈ grid g.row g.col, 0 ≤ g.get p.1 p.2) (hr : ∀ p, IsNumber g p → InReach g p)
    (hQ : (coveredSet g).card ≤ 789) {F : Nat} (hF : Set.ncard {q | Frontier g q} ≤ F) (hF39 : F ≤ 39) {minenum : ℚ}
    (h1 : 1 ≤ minenum) {m : Nat} (hm : (m : ℤ) + (markedSet g).card = ⌊minenum⌋) (hl : (layouts g m).Nonempty)
    {q : Pos} (hq : IsCovered h q) :
    (∃ e, calPossibilityOnboardF fl h minenum = some (.error e) ∧ ((layouts g m).filter fun A => Disjoint A D) = ∅) ∨
    ∃ P rng, calPossibilityOnboardF fl h minenum = some (.ok (P, rng)) ∧
      (((P.getD q.1 []).getD q.2 none = none ∧ ((layouts g m).filter fun A => Disjoint A D) = ∅) ∨
       ∃ x c : ℚ, (P.getD q.1 []).getD q.2 none = some x ∧ 0 ≤ c ∧ c ≤ 1 ∧
        |x - c| ≤ tolerance (2 ^ F) (coveredSet g).card ∧
        (((layouts g m).filter fun A => Disjoint A D).Nonempty →
          c = (((layouts g m).filter fun A => Disjoint A D ∧ q ∈ A).card : ℚ) /
            (((layouts g m).filter fun A => Disjoint A D).card : ℚ))) := by
  have hv' : ∀ p ∈ grid h.row h.col, 0 ≤ h.get p.1 p.2 := by
    intro p hp
    rw [R.row, R.col] at hp
    rw [R.get p hp]
    split
    · omega
    · exact hv p hp
  have hsub : coveredSet h ⊆ coveredSet g := fun p hp => mem_coveredSet.mpr ((R.covered p).mp (mem_coveredSet.mp hp)).1
  have hcardle : (coveredSet h).card ≤ (coveredSet g).card := Finset.card_le_card hsub
  obtain ⟨L1, L2⟩ := R.layouts hr m
  by_cases hc : ∃ τ, ReachConsistent h τ
  · obtain ⟨lo, hi, G, i1, i2, iG, i3⟩ := cal_possibility_onboard_float hf h hh hv' hc (hcardle.trans hQ) minenum
    have hml : MinesLeftF fl h minenum lo hi m := by
      unfold MinesLeftF
      rw [if_pos h1, R.marked]
      exact hm
    obtain ⟨a, b⟩ := i3 m hml
    have hG := R.splits iG hF
    by_cases hlo : m < lo
    · left
      refine ⟨3, a hlo, ?_⟩
      by_contra hcon
      have hne := Finset.nonempty_iff_ne_empty.mpr hcon
      have h4 : (layouts h m).Nonempty := hne.mono L1
      have := i1.2 h4
      omega
    · right
      have h12 : splitCount G ≤ 10 ^ 12 := hG.trans ((Nat.pow_le_pow_right (by norm_num) hF39).trans (by norm_num))
      obtain ⟨P, p1, -, -, p2⟩ := b (by omega) h12
      refine ⟨P, _, p1, ?_⟩
      have hqg := hq.1
      simp only [grid, Finset.mem_product, Finset.mem_range] at hqg
      have hcl := (p2 q.1 q.2 hqg.1 hqg.2).1 hq.2
      match hch : chance h m (q.1, q.2), hx : (P.getD q.1 []).getD q.2 none with
      | none, none =>
        left
        refine ⟨rfl, ?_⟩
        by_contra hcon
        have hne := (Finset.nonempty_iff_ne_empty.mpr hcon).mono L1
        unfold chance at hch
        rw [if_neg (Nat.pos_iff_ne_zero.mp (Finset.card_pos.mpr hne))] at hch
        cases hch
      | some c, some x =>
        right
        rw [hch, hx] at hcl
        have hcl : |x - c| ≤ c * tolerance (splitCount G) (coveredSet h).card := hcl
        have hc0 := chance_nonneg hch
        have hc1 := chance_le_one hch
        have ht := tolerance_mono hG hcardle
        have ht0 := tolerance_nonneg (splitCount G) (coveredSet h).card
        refine ⟨x, c, rfl, hc0, hc1, ?_, fun hne => ?_⟩
        · refine hcl.trans (le_trans ?_ ht)
          exact mul_le_of_le_one_left ht0 hc1
        · unfold chance at hch
          rw [L2 hne, if_neg (Nat.pos_iff_ne_zero.mp (Finset.card_pos.mpr hne)), Finset.filter_filter] at hch
          simp only [Option.some.injEq] at hch
          exact hch.symm
      | none, some x => rw [hch, hx] at hcl; exact hcl.elim
      | some c, none => rw [hch, hx] at hcl; exact hcl.elim
  · left
    refine ⟨1, ?_, ?_⟩
    · unfold calPossibilityOnboardF
      rw [cal_possibility_contradiction_float fl h hh ?_ hc]
      rintro p hp ⟨a, ha, hn⟩
      have hp' := (R.number p).mp hp
      obtain ⟨A, hA⟩ := hl
      unfold layouts at hA
      simp only [Finset.mem_filter, Finset.mem_powerset] at hA
      have := hA.2.2 p hp' ⟨a, ((R.covered a).mp ha).1, hn⟩ (hr p hp')
      rw [R.value p hp', R.mines p _ (fun _ _ => rfl), this]
      unfold minesNear
      exact_mod_cast Finset.card_le_card (Finset.monotone_filter_right _ fun q hq => by
        rintro ⟨h1, h2 | h2⟩
        · exact ⟨h1, .inl h2⟩
        · simp at h2)
    · by_contra hcon
      obtain ⟨A, hA⟩ := Finset.nonempty_iff_ne_empty.mpr hcon
      have := L1 hA
      unfold layouts at this
      simp only [Finset.mem_filter] at this
      exact hc ⟨_, this.2.2⟩

open Classical in
/-- As `Acc`, up to an absolute error `ε`. -/
def AccF (ε : ℚ) (g : Board) (m : Nat) (D : Finset Pos) (x : Option ℚ) : Prop :=
  (∃ y, x = some y ∧ |y - (((layouts g m).filter fun A => Disjoint A D).card : ℚ) / ((layouts g m).card : ℚ)| ≤ ε) ∨
  (((layouts g m).filter fun A => Disjoint A D) = ∅ ∧ x = none)

theorem AccF.mono {ε ε' : ℚ} (h : ε ≤ ε') {g : Board} {m : Nat} {D : Finset Pos} {x : Option ℚ} (hx : AccF ε g m D x) :
    AccF ε' g m D x := by
  rcases hx with ⟨y, h1, h2⟩ | h1
  · exact .inl ⟨y, h1, h2.trans h⟩
  · exact .inr h1

/-- The error of one factor. -/
theorem factor_err {fl : ℚ → ℚ} (hf : RoundsAbs fl) {a c p x ε δ : ℚ} (ha : 0 ≤ a) (ha1 : a ≤ 1) (hc : 0 ≤ c) (hc1 : c ≤ 1)
    (hp : |p - a| ≤ ε) (hx : |x - c| ≤ δ) (hε : ε ≤ 1 / 2) (hδ : δ ≤ 1 / 40) :
    |fl (p * fl (1 - x)) - a * (1 - c)| ≤ ε + (2 * δ + 1 / 2 ^ 48) := by
  have hε0 : 0 ≤ ε := (abs_nonneg _).trans hp
  have hδ0 : 0 ≤ δ := (abs_nonneg _).trans hx
  rw [abs_le] at hp hx
  have e1 : |fl (1 - x) - (1 - x)| ≤ 1 / 2 ^ 51 := hf _ (by rw [abs_le]; constructor <;> linarith [hx.1, hx.2])
  rw [abs_le] at e1
  set y := fl (1 - x) with hy
  have hu : (0 : ℚ) < 1 / 2 ^ 51 := by norm_num
  have hu2 : (1 : ℚ) / 2 ^ 51 ≤ 1 / 40 := by norm_num
  have hu3 : (1 : ℚ) / 2 ^ 48 = 8 * (1 / 2 ^ 51) := by norm_num
  rw [hu3]
  generalize (1 : ℚ) / 2 ^ 51 = u at *
  have y1 : |y - (1 - c)| ≤ δ + u := by rw [abs_le]; constructor <;> linarith [hx.1, hx.2, e1.1, e1.2]
  have p1 : |p - a| ≤ ε := by rw [abs_le]; exact hp
  have pa : |p| ≤ 3 / 2 := by rw [abs_le]; constructor <;> linarith [hp.1, hp.2]
  have e2 : |p * y - a * (1 - c)| ≤ 3 / 2 * (δ + u) + ε := by
    have : p * y - a * (1 - c) = p * (y - (1 - c)) + (p - a) * (1 - c) := by ring
    rw [this]
    refine (abs_add_le _ _).trans (add_le_add ?_ ?_)
    · rw [abs_mul]
      exact mul_le_mul pa y1 (abs_nonneg _) (by norm_num)
    · rw [abs_mul, abs_of_nonneg (by linarith : (0:ℚ) ≤ 1 - c)]
      calc |p - a| * (1 - c) ≤ ε * 1 := mul_le_mul p1 (by linarith) (by linarith) hε0
        _ = ε := mul_one _
  have e3 : |p * y| ≤ 4 := by
    have h1 : |p * y| ≤ |p * y - a * (1 - c)| + |a * (1 - c)| := by
      have := abs_add_le (p * y - a * (1 - c)) (a * (1 - c))
      simpa using this
    have h2 : |a * (1 - c)| ≤ 1 := by
      rw [abs_of_nonneg (mul_nonneg ha (by linarith))]
      calc a * (1 - c) ≤ 1 * 1 := mul_le_mul ha1 (by linarith) (by linarith) (by norm_num)
        _ = 1 := by norm_num
    linarith
  have e4 := hf _ e3
  have e5 : |fl (p * y) - a * (1 - c)| ≤ |fl (p * y) - p * y| + |p * y - a * (1 - c)| := by
    have := abs_add_le (fl (p * y) - p * y) (p * y - a * (1 - c))
    simpa using this
  linarith

theorem frac_step {a b t : ℚ} (ha : a ≠ 0) : a / t * (1 - b / a) = (a - b) / t := by
  field_simp

open Classical in
theorem openLoopF_spec {fl : ℚ → ℚ} (hf : Rounds fl) (hfa : RoundsAbs fl) {g : Board}
    (hv : ∀ p ∈ grid g.row g.col, 0 ≤ g.get p.1 p.2 ∧ g.get p.1 p.2 ≤ 12) (hr : ∀ p, IsNumber g p → InReach g p)
    (hQ : (coveredSet g).card ≤ 789) {F : Nat} (hF : Set.ncard {q | Frontier g q} ≤ F) (hF39 : F ≤ 39)
    (hδ : tolerance (2 ^ F) (coveredSet g).card ≤ 1 / 40)
    {minenum : ℚ} (h1 : 1 ≤ minenum) {m : Nat} (hm : (m : ℤ) + (markedSet g).card = ⌊minenum⌋)
    (hl : (layouts g m).Nonempty) (c : Pos) {r k : Nat} : ∀ (qs : List Pos) (D : Finset Pos) (h : Board) (p : Option ℚ) (n : Nat),
    qs.Nodup → (∀ q ∈ qs, q ∈ grid g.row g.col ∧ q ∉ D) → Ruled g D h → Rect h r k → h ≠ [] →
    n + qs.length ≤ 9 → AccF (n * (2 * tolerance (2 ^ F) (coveredSet g).card + 1 / 2 ^ 48)) g m D p →
    ∃ x, openLoopF fl g minenum c qs h p = some x ∧
      ((∃ q ∈ qs, (g.get q.1 q.2 < 10 ∧ q = c) ∨ g.get q.1 q.2 = 11) → x = some 0) ∧
      ((¬ ∃ q ∈ qs, (g.get q.1 q.2 < 10 ∧ q = c) ∨ g.get q.1 q.2 = 11) →
        AccF (9 * (2 * tolerance (2 ^ F) (coveredSet g).card + 1 / 2 ^ 48)) g m
          (D ∪ (qs.filter fun q => g.get q.1 q.2 = 10).toFinset) x) := by
  set δ := tolerance (2 ^ F) (coveredSet g).card with hδe
  have hδ0 : 0 ≤ δ := tolerance_nonneg _ _
  have hu : (0 : ℚ) < 1 / 2 ^ 48 := by norm_num
  have hu2 : (1 : ℚ) / 2 ^ 48 ≤ 1 / 1000 := by norm_num
  intro qs
  induction qs with
  | nil =>
    intro D h p n _ _ _ _ _ hn hp
    refine ⟨p, rfl, by simp, fun _ => ?_⟩
    have : AccF (9 * (2 * δ + 1 / 2 ^ 48)) g m D p := by
      refine hp.mono (mul_le_mul_of_nonneg_right ?_ (by linarith))
      have : n ≤ 9 := by simpa using hn
      exact_mod_cast this
    simpa using this
  | cons q qs ih =>
    intro D h p n hnd hq R hrect hh hn hp
    rw [List.length_cons] at hn
    have hqg := (hq q (by simp)).1
    rw [openLoopF]
    by_cases b1 : (g.get q.1 q.2 < 10 ∧ q = c) ∨ g.get q.1 q.2 = 11
    · rw [if_pos b1]
      refine ⟨_, rfl, fun _ => rfl, fun hno => absurd ⟨q, by simp, b1⟩ hno⟩
    · rw [if_neg b1]
      have hex : (∃ a ∈ q :: qs, (g.get a.1 a.2 < 10 ∧ a = c) ∨ g.get a.1 a.2 = 11) ↔
          ∃ a ∈ qs, (g.get a.1 a.2 < 10 ∧ a = c) ∨ g.get a.1 a.2 = 11 := by
        rw [List.exists_mem_cons_iff]
        simp only [b1, false_or]
      rw [hex]
      by_cases b2 : g.get q.1 q.2 = 12 ∨ g.get q.1 q.2 < 10
      · rw [if_pos b2]
        have e : (q :: qs).filter (fun q => decide (g.get q.1 q.2 = 10)) =
            qs.filter fun q => decide (g.get q.1 q.2 = 10) := by
          rw [List.filter_cons_of_neg]
          simp only [decide_eq_true_eq]
          omega
        rw [e]
        exact ih D h p n (List.nodup_cons.mp hnd).2 (fun a ha => hq a (by simp [ha])) R hrect hh (by omega) hp
      · rw [if_neg b2]
        have h10 : g.get q.1 q.2 = 10 := by
          have := (hv q hqg).2
          push Not at b1
          omega
        have hcg : IsCovered g q := ⟨hqg, h10⟩
        have hch : IsCovered h q := (R.covered q).mpr ⟨hcg, (hq q (by simp)).2⟩
        have e : D ∪ ((q :: qs).filter (fun q => decide (g.get q.1 q.2 = 10))).toFinset =
            insert q D ∪ (qs.filter fun q => decide (g.get q.1 q.2 = 10)).toFinset := by
          rw [List.filter_cons_of_pos (by simpa using h10), List.toFinset_cons]
          ext a; simp
        rw [e]
        rcases open_step_float hf R hh (fun p hp => (hv p hp).1) hr hQ hF hF39 h1 hm hl hch with ⟨er, s1, s2⟩ | ⟨P, rg, s1, s2⟩
        · rw [s1]
          refine ⟨some 0, rfl, fun _ => rfl, fun _ => ?_⟩
          left
          have : ((layouts g m).filter fun A => Disjoint A
              (insert q D ∪ (qs.filter fun q => decide (g.get q.1 q.2 = 10)).toFinset)) = ∅ := by
            rw [Finset.filter_eq_empty_iff] at s2 ⊢
            intro A hA hd
            apply s2 hA
            rw [Finset.disjoint_left] at hd ⊢
            intro a ha hb
            exact hd ha (by simp [hb])
          rw [this]
          refine ⟨0, rfl, ?_⟩
          simp
          positivity
        · rw [s1]
          simp only
          refine ih (insert q D) _ _ (n + 1) (List.nodup_cons.mp hnd).2 (fun a ha => ⟨(hq a (by simp [ha])).1, ?_⟩)
            (R.set hrect hcg) (rect_set hrect _ _ _) ?_ (by omega) ?_
          · rw [Finset.mem_insert, not_or]
            refine ⟨?_, (hq a (by simp [ha])).2⟩
            rintro rfl
            exact (List.nodup_cons.mp hnd).1 ha
          · intro he
            have := congrArg List.length he
            unfold Board.set at this
            rw [List.length_modify] at this
            exact hh (List.length_eq_zero_iff.mp this)
          · have hsplit := split_insert (layouts g m) D q
            have hzz : ((layouts g m).filter fun A => Disjoint A D) = ∅ →
                ((layouts g m).filter fun A => Disjoint A (insert q D)) = ∅ := by
              intro hne
              rw [Finset.filter_eq_empty_iff] at hne ⊢
              intro A hA hd
              rw [Finset.disjoint_insert_right] at hd
              exact hne hA hd.2
            rcases hp with ⟨y, rfl, hy⟩ | ⟨hp1, rfl⟩
            · rcases s2 with ⟨s3, s4⟩ | ⟨x, cc, s3, s4, s5, s6, s7⟩
              · right
                rw [s3]
                exact ⟨hzz s4, rfl⟩
              · left
                rw [s3]
                refine ⟨_, rfl, ?_⟩
                have n2 : (0 : ℚ) < ((layouts g m).card : ℚ) := by
                  exact_mod_cast Finset.card_pos.mpr hl
                have a0 : 0 ≤ (((layouts g m).filter fun A => Disjoint A D).card : ℚ) / ((layouts g m).card : ℚ) := by positivity
                have a1 : (((layouts g m).filter fun A => Disjoint A D).card : ℚ) / ((layouts g m).card : ℚ) ≤ 1 := by
                  apply div_le_one_of_le₀ _ n2.le
                  exact_mod_cast Finset.card_le_card (Finset.filter_subset _ _)
                have hn9 : (n : ℚ) ≤ 9 := by
                  have : n ≤ 9 := by omega
                  exact_mod_cast this
                have hsmall : (n : ℚ) * (2 * δ + 1 / 2 ^ 48) ≤ 1 / 2 := by
                  have : (n : ℚ) * (2 * δ + 1 / 2 ^ 48) ≤ 9 * (2 * δ + 1 / 2 ^ 48) :=
                    mul_le_mul_of_nonneg_right hn9 (by linarith)
                  linarith
                have hfe := factor_err hfa a0 a1 s4 s5 hy s6 hsmall hδ
                have heq : (((layouts g m).filter fun A => Disjoint A D).card : ℚ) / ((layouts g m).card : ℚ) * (1 - cc) =
                    (((layouts g m).filter fun A => Disjoint A (insert q D)).card : ℚ) / ((layouts g m).card : ℚ) := by
                  by_cases hne : ((layouts g m).filter fun A => Disjoint A D).Nonempty
                  · have n1 : (((layouts g m).filter fun A => Disjoint A D).card : ℚ) ≠ 0 := by
                      exact_mod_cast Nat.pos_iff_ne_zero.mp (Finset.card_pos.mpr hne)
                    have e3 : (((layouts g m).filter fun A => Disjoint A (insert q D)).card : ℚ) =
                        ((layouts g m).filter fun A => Disjoint A D).card -
                        ((layouts g m).filter fun A => Disjoint A D ∧ q ∈ A).card := by rw [hsplit]; ring
                    rw [s7 hne, e3]
                    exact frac_step n1
                  · rw [Finset.not_nonempty_iff_eq_empty] at hne
                    rw [hzz hne, hne]
                    simp
                rw [heq] at hfe
                refine hfe.trans (le_of_eq ?_)
                push_cast
                ring
            · right
              exact ⟨hzz hp1, rfl⟩

open Classical in
/-- C77: `cal_is_op_possibility_cells` in floating point: for every rounding with the accuracy of `f64`, every board of at most 789
covered cells of which at most `F` are next to numbers, and every cell asked for, the answer is the fraction of all layouts in
which a click opens an empty area, up to an absolute error of 18 tolerances and `2^-44`; NaN only when that fraction is 0. -/
theorem cal_is_op_possibility_float {fl : ℚ → ℚ} (hf : Rounds fl) (hfa : RoundsAbs fl) (g : Board) {r k : Nat} (hrect : Rect g r k)
    (hg : g ≠ []) (hv : ∀ p ∈ grid g.row g.col, 0 ≤ g.get p.1 p.2 ∧ g.get p.1 p.2 ≤ 12) (hr : ∀ p, IsNumber g p → InReach g p)
    (hQ : (coveredSet g).card ≤ 789) {F : Nat} (hF : Set.ncard {q | Frontier g q} ≤ F) (hF39 : F ≤ 39)
    (hδ : tolerance (2 ^ F) (coveredSet g).card ≤ 1 / 40)
    (minenum : ℚ) (h1 : 1 ≤ minenum) (m : Nat) (hm : (m : ℤ) + (markedSet g).card = ⌊minenum⌋)
    (hl : (layouts g m).Nonempty) (cs : List Pos) (hcs : ∀ c ∈ cs, c ∈ grid g.row g.col) :
    ∃ out, calIsOpPossibilityF fl g minenum cs = some out ∧
      List.Forall₂ (fun c x =>
        (∃ y, x = some y ∧ |y - openChance g m c| ≤ 18 * tolerance (2 ^ F) (coveredSet g).card + 1 / 2 ^ 44) ∨
        (openChance g m c = 0 ∧ x = none)) cs out := by
  have hδ0 : 0 ≤ tolerance (2 ^ F) (coveredSet g).card := tolerance_nonneg _ _
  unfold calIsOpPossibilityF
  rw [if_neg hg]
  apply mapM_forall₂
  intro c hc
  have hcg := hcs c hc
  have hacc : AccF ((0 : Nat) * (2 * tolerance (2 ^ F) (coveredSet g).card + 1 / 2 ^ 48)) g m ∅ (some 1) := by
    left
    have : (layouts g m).filter (fun A => Disjoint A (∅ : Finset Pos)) = layouts g m := by
      rw [Finset.filter_true_of_mem]; intro A _; simp
    rw [this, div_self]
    · exact ⟨1, rfl, by simp⟩
    · exact_mod_cast Nat.pos_iff_ne_zero.mp (Finset.card_pos.mpr hl)
  obtain ⟨x, x1, x2, x3⟩ := openLoopF_spec hf hfa hv hr hQ hF hF39 hδ h1 hm hl c (block g.row g.col c.1 c.2) ∅ g (some 1) 0
    (nodup_block _ _ _ _) (fun q hq => ⟨(near_mem_block.mp hq).1, by simp⟩)
    ⟨rfl, rfl, fun p _ => by simp, by simp⟩ hrect hg (by have := length_block_le g.row g.col c.1 c.2; omega) hacc
  refine ⟨x, x1, ?_⟩
  have hiff : (∃ q ∈ block g.row g.col c.1 c.2, (g.get q.1 q.2 < 10 ∧ q = c) ∨ g.get q.1 q.2 = 11) ↔
      (g.get c.1 c.2 < 10 ∨ ∃ q ∈ grid g.row g.col, Near c q ∧ g.get q.1 q.2 = 11) := by
    constructor
    · rintro ⟨q, hq, ⟨h2, rfl⟩ | h2⟩
      · exact .inl h2
      · exact .inr ⟨q, (near_mem_block.mp hq).1, (near_mem_block.mp hq).2, h2⟩
    · rintro (h2 | ⟨q, h2, h3, h4⟩)
      · exact ⟨c, near_mem_block.mpr ⟨hcg, by simp [Near]⟩, .inl ⟨h2, rfl⟩⟩
      · exact ⟨q, near_mem_block.mpr ⟨h2, h3⟩, .inr h4⟩
  unfold openChance
  by_cases hb : g.get c.1 c.2 < 10 ∨ ∃ q ∈ grid g.row g.col, Near c q ∧ g.get q.1 q.2 = 11
  · rw [if_pos hb]
    left
    refine ⟨0, x2 (hiff.mpr hb), ?_⟩
    rw [sub_self, abs_zero]
    have : (0 : ℚ) ≤ 1 / 2 ^ 44 := by norm_num
    linarith
  · rw [if_neg hb]
    have hx := x3 fun hcon => hb (hiff.mp hcon)
    have hf : ((layouts g m).filter fun A => Disjoint A
        (∅ ∪ ((block g.row g.col c.1 c.2).filter fun q => g.get q.1 q.2 = 10).toFinset)) =
        (layouts g m).filter fun A => ∀ q ∈ A, ¬ Near c q := by
      apply Finset.filter_congr
      intro A hA
      have hAc : ∀ q ∈ A, IsCovered g q := by
        unfold layouts at hA
        simp only [Finset.mem_filter, Finset.mem_powerset] at hA
        exact fun q hq => mem_coveredSet.mp (hA.1 hq)
      rw [Finset.empty_union, Finset.disjoint_left]
      simp only [List.mem_toFinset, List.mem_filter, near_mem_block, decide_eq_true_eq, not_and]
      constructor
      · intro h2 q hq hn; exact h2 hq ⟨(hAc q hq).1, hn⟩ (hAc q hq).2
      · rintro h2 q hq ⟨-, hn⟩; exact absurd hn (h2 q hq)
    unfold AccF at hx
    rw [hf] at hx
    rcases hx with ⟨y, rfl, hy⟩ | ⟨hx, hx2⟩
    · left
      refine ⟨y, rfl, hy.trans ?_⟩
      have : (9 : ℚ) * (1 / 2 ^ 48) ≤ 1 / 2 ^ 44 := by norm_num
      linarith
    · right
      rw [hx]
      exact ⟨by simp, hx2⟩

/-- C77, refuted: in floating point an opening chance can be negative (here about `-6.7e-18`, where exact arithmetic gives 0). -/
theorem C77_open_negative :
    calIsOpPossibilityF fl64 [[10, 10, 10, 10, 10, 10, 10, 10], [10, 1, 10, 10, 10, 10, 10, 1]] 5 [(0, 3)] =
      some [some (-4323455642275677 / 649037107316853453566312041152512)] ∧
    calIsOpPossibility [[10, 10, 10, 10, 10, 10, 10, 10], [10, 1, 10, 10, 10, 10, 10, 1]] 5 [(0, 3)] = some [some 0] := by
  decide +kernel

/-- With at most 26 of at most 480 covered cells next to numbers the tolerance is small enough. -/
theorem tolerance_open {F Q : Nat} (h : F ≤ 26) (h' : Q ≤ 480) : tolerance (2 ^ F) Q ≤ 1 / 40 := by
  refine (tolerance_mono (Nat.pow_le_pow_right (by norm_num) h) h').trans ?_
  unfold tolerance
  norm_num

/-- The hypotheses hold for one number between covered cells, with two mines. -/
example : Rect exPoss 1 5 ∧ exPoss ≠ [] ∧ (∀ p ∈ grid exPoss.row exPoss.col, 0 ≤ exPoss.get p.1 p.2 ∧ exPoss.get p.1 p.2 ≤ 12) ∧
    (∀ p, IsNumber exPoss p → InReach exPoss p) ∧ (coveredSet exPoss).card ≤ 789 ∧ Set.ncard {q | Frontier exPoss q} ≤ 4 ∧
    tolerance (2 ^ 4) (coveredSet exPoss).card ≤ 1 / 40 ∧ ((2 : Nat) : ℤ) + (markedSet exPoss).card = ⌊(2 : ℚ)⌋ ∧
    (layouts exPoss 2).Nonempty := by
  have hc : (coveredSet exPoss).card = 4 := by decide +kernel
  refine ⟨⟨rfl, by decide⟩, by decide, by decide +kernel, ?_, by rw [hc]; omega, ?_, ?_, ?_, exPoss_layouts⟩
  · intro p _ l hl hq
    have : l.toFinset ⊆ grid exPoss.row exPoss.col := by
      intro q hq'
      obtain ⟨a, h1, -, h3⟩ := hq q (by simpa using hq')
      rcases Relation.ReflTransGen.cases_tail h3 with h4 | ⟨b, -, h4⟩
      · rw [h4]; exact h1.1
      · exact h4.1.1
    have h2 := Finset.card_le_card this
    rw [List.toFinset_card_of_nodup hl] at h2
    have h3 : (grid exPoss.row exPoss.col).card = 5 := by decide +kernel
    omega
  · have : {q | Frontier exPoss q} ⊆ (coveredSet exPoss : Set Pos) := fun q hq => by
      have : Frontier exPoss q := hq
      exact mem_coveredSet.mpr this.1
    refine (Set.ncard_le_ncard this (Finset.finite_toSet _)).trans ?_
    rw [Set.ncard_coe_finset, hc]
  · rw [hc]; exact tolerance_open (by omega) (by omega)
  · have : (markedSet exPoss).card = 0 := by decide +kernel
    rw [this]; simp

end Ms.Properties
