import Verif.Lemmas.PossFloatMain
import Verif.Properties.Time
import Verif.Properties.PossOpen

/-! # C77: the probability engine in floating point

`calPossibilityF fl` (Model/PossFloat.lean) is `cal_possibility` with every `f64` operation rounded by `fl`; `Rounds fl`
(SpecPossFloat.lean) says that `fl` has a relative error of at most `2^-53` for numbers from `1e-300` to `1e300`. -/

set_option exponentiation.threshold 400

namespace Ms.Properties
open Ms Ms.Spec BigNumber

/-- `f64` is such a rounding. -/
theorem rounds_fl64 : Rounds fl64 := by
  refine ⟨fl64_zero, fun x h1 _ => ?_⟩
  have hx : (0 : ℚ) ≤ x := le_trans (by norm_num) h1
  have := fl64_err x
  rwa [abs_of_nonneg hx] at this

/-- So is no rounding at all. -/
theorem rounds_id : Rounds id := ⟨rfl, fun x h1 _ => by
  have hx : (0 : ℚ) ≤ x := le_trans (by norm_num) h1
  simpa using div_nonneg hx (by norm_num : (0 : ℚ) ≤ 2 ^ 53)⟩

/-- As `MinesLeft`, with the rounding of `cells as f64 * minenum`. -/
def MinesLeftF (fl : ℚ → ℚ) (g : Board) (minenum : ℚ) (lo hi m : Nat) : Prop :=
  if 1 ≤ minenum then (m : ℤ) + (markedSet g).card = ⌊minenum⌋
  else (markedSet g).card ≤ ⌊fl (fl ((g.row * g.col : Nat) : ℚ) * minenum)⌋.toNat ∧
    m = min (max (⌊fl (fl ((g.row * g.col : Nat) : ℚ) * minenum)⌋.toNat - (markedSet g).card) lo) hi

/-- For a number of mines (at least 1) nothing is rounded. -/
theorem minesLeftF_eq (fl : ℚ → ℚ) (g : Board) {minenum : ℚ} (h : 1 ≤ minenum) (lo hi m : Nat) :
    MinesLeftF fl g minenum lo hi m ↔ MinesLeft g minenum lo hi m := by
  unfold MinesLeftF MinesLeft
  rw [if_pos h, if_pos h]

/-- For a density the rounding matters: of 10 cells, `0.7` (as `f64` slightly less than 7/10) is 7 mines after rounding, 6 without. -/
theorem density_rounds : ⌊fl64 (fl64 10 * fl64 (7 / 10))⌋ = 7 ∧ ⌊10 * fl64 (7 / 10)⌋ = 6 := by decide +kernel

theorem groups_of {g : Board} {S : Sys} (h : SysOf g (numberCells g) S) (hc : ∃ τ, ReachConsistent g τ) :
    Groups g ((smallBlocks S).map fun B => B.x) := by
  have e : ((smallBlocks S).map fun B => B.x).flatten = sysCells (smallBlocks S) := by
    unfold sysCells
    rw [List.flatMap_def]
  refine ⟨by rw [e]; exact small_sub h.nodup, fun q => by rw [e]; exact mem_small_fringe h q, ?_, ?_⟩
  · intro l hl a ha b
    obtain ⟨B, hB, rfl⟩ := List.mem_map.mp hl
    exact (shares_iff_block h (mem_smallBlocks.mp hB).1 ha).symm
  · intro l hl hx
    obtain ⟨B, hB, rfl⟩ := List.mem_map.mp hl
    have hok := small_enumOK h hc B hB
    obtain ⟨r, hr⟩ := List.exists_mem_of_ne_nil _ hok.ne
    obtain ⟨k, hk⟩ := hok.hit r hr
    have h0 := (hok.rect r hr).1
    rw [hx, List.length_nil, List.length_eq_zero_iff] at h0
    rw [h0] at hk
    simp at hk

theorem splitCount_blocks (S : Sys) : splitCount (S.map fun B => B.x) = splits S := by
  unfold splitCount splits
  rw [List.map_map]
  rfl

theorem WithinO.close {N Q : Nat} {v x : Option ℚ} (h : WithinO (KQ N Q) v x) (hN : N ≤ 10 ^ 12) (hQ : Q ≤ 789) :
    CloseO (tolerance N Q) v x := by
  match v, x with
  | none, none => trivial
  | some v, some x =>
    have hv := Within.nonneg_left h (by unfold KQ; positivity)
    have := Within.err h hv (kq_le hN hQ)
    refine this.trans (le_of_eq ?_)
    unfold tolerance KQ
    push_cast
    ring
  | none, some _ => exact h.elim
  | some _, none => exact h.elim

theorem cells_eq {K : Nat} {l l' : List (Pos × Option ℚ)} (h : List.Forall₂ (fun x y => x.1 = y.1 ∧ WithinO K x.2 y.2) l l') :
    l'.map (fun e => e.1) = l.map fun e => e.1 := by
  induction h with
  | nil => rfl
  | cons h1 _ ih => rw [List.map_cons, List.map_cons, h1.1, ih]

/-- C77: floating point does not spoil the probabilities.  For every rounding with the accuracy of `f64` and every board of at most 789
covered cells that some layout explains (and whose groups allow at most `10^12` distributions of mines), `cal_possibility` answers
like exact arithmetic does: the same errors, cells and mine numbers, NaN for NaN, and each probability within a relative error
of `tolerance`: about `2^-50` times the number of distributions times a few hundred.  (`MinesLeftF` is `MinesLeft` with the product
of a density and the number of cells rounded.) -/
theorem cal_possibility_float {fl : ℚ → ℚ} (hf : Rounds fl) (g : Board) (hne : g ≠ [])
    (hv : ∀ p ∈ grid g.row g.col, 0 ≤ g.get p.1 p.2) (hc : ∃ τ, ReachConsistent g τ) (hQ : (coveredSet g).card ≤ 789) (minenum : ℚ) :
    ∃ lo hi P, IsLeast {k | (layouts g k).Nonempty} lo ∧ IsGreatest {k | (layouts g k).Nonempty} hi ∧ Groups g P ∧
    ∀ m, MinesLeftF fl g minenum lo hi m →
      (m < lo → calPossibilityF fl g minenum = some (.error 3)) ∧
      (lo ≤ m → splitCount P ≤ 10 ^ 12 → ∃ r, calPossibilityF fl g minenum = some (.ok r) ∧
        (r.front.map fun e => e.1).Nodup ∧ (∀ q, q ∈ (r.front.map fun e => e.1) ↔ Fringe g q) ∧
        (∀ e ∈ r.front, CloseO (tolerance (splitCount P) (coveredSet g).card) (chance g m e.1) e.2) ∧
        (∀ q, IsCovered g q → ¬ Fringe g q → CloseO (tolerance (splitCount P) (coveredSet g).card) (chance g m q) r.rest) ∧
        ((∀ q, IsCovered g q → Fringe g q) → r.rest = none) ∧
        r.range = (lo + (markedSet g).card, m + (markedSet g).card,
          min hi (m + Set.ncard {q | IsCovered g q ∧ ¬ Fringe g q}) + (markedSet g).card) ∧
        IsGreatest {n | ∃ l : List Pos, l.Nodup ∧ l.length = n ∧ (∀ a ∈ l, Frontier g a) ∧
          ∀ a ∈ l, ∀ b ∈ l, SharesNumbers g a b} r.longest) := by
  obtain ⟨S, s1, h⟩ := refreshMatrixs_spec g
  obtain ⟨tabs, los, his, t1, t2, t3, t4, t5, hlh, t6⟩ := poss_main h hc
  have hcard := otherCells_card h hv
  have hnc : Set.ncard {q | IsCovered g q ∧ ¬ Fringe g q} = (otherCells g S).card := by
    rw [← Set.ncard_coe_finset]
    congr 1
    ext q
    simp [mem_otherCells h]
  have hcf : ∀ (m : Nat), MinesLeftF fl g minenum los.sum (his.sum + (otherCells g S).card) m →
      possTotalF fl g minenum (markedCount g) los.sum his.sum (otherCells g S).card = some (.ok m) := by
    intro m hm
    unfold MinesLeftF at hm
    unfold possTotalF
    rw [markedCount_card]
    by_cases h1 : 1 ≤ minenum
    · rw [if_pos h1] at hm
      rw [if_neg (not_lt.mpr h1), if_neg (by omega)]
      congr 2
      omega
    · rw [if_neg h1] at hm
      rw [if_pos (not_le.mp h1)]
      simp only
      rw [if_neg (by omega), hm.2]
  refine ⟨los.sum, his.sum + (otherCells g S).card, _, t4, t5, groups_of h hc, fun m hm => ?_⟩
  have hpt := hcf m hm
  have hlim : (S.filter fun B => ¬ ENUM_LIMIT < B.x.length) = smallBlocks S := rfl
  constructor
  · intro hlt
    unfold calPossibilityF
    rw [if_neg hne]
    simp only [s1, hlim, t1, t2, t3, ← hcard, hpt, Option.pure_def, Option.bind_eq_bind, Option.bind_some]
    rw [if_pos (by omega)]
  · intro hle hsp
    rw [splitCount_blocks] at hsp ⊢
    obtain ⟨ways, O, T, ps, u, w1, w2, w3, w4, w5, w6, w7, w8⟩ := t6 m hle
    obtain ⟨waysF, OF, TF, psF, uF, f1, f2, f3, f4, f5, f6, f7⟩ := poss_float hf h hc le_rfl hsp hQ t1 (m := m) (by omega) w1 w2 w3 w4 w5
    have hcells := cells_eq f6
    refine ⟨{
        front := psF.flatten
        rest := if (otherCells g S).card = 0 then none else (uF.divBigF fl TF).map fun p => fl (p / fl (otherCells g S).card)
        range := (los.sum + markedCount g, m + markedCount g, min his.sum m + markedCount g + (otherCells g S).card)
        longest := S.foldr (fun B n => max n B.x.length) 0 }, ?_, ?_, ?_, ?_, ?_, ?_, ?_, longest_spec h⟩
    · unfold calPossibilityF
      rw [if_neg hne]
      simp only [s1, hlim, t1, t2, t3, ← hcard, hpt, Option.pure_def, Option.bind_eq_bind, Option.bind_some]
      rw [if_neg (by omega), f1]
      simp only [Option.bind_some]
      rw [f2]
      simp only [Option.bind_some]
      rw [f3]
      simp only [Option.bind_some]
      rw [f4]
      simp only [Option.bind_some]
      rw [f5]
      simp only [Option.bind_some]
    · simp only
      rw [hcells]
      exact w6.nodup_iff.mpr (small_sub h.nodup)
    · intro q
      simp only
      rw [hcells, w6.mem_iff, mem_small_fringe h]
    · intro e he
      obtain ⟨n, hn, rfl⟩ := List.getElem_of_mem he
      have hfa := List.forall₂_iff_get.mp f6
      have := hfa.2 n (by rw [hfa.1]; exact hn) hn
      simp only [List.get_eq_getElem] at this
      rw [← this.1, ← w7 _ (List.getElem_mem _)]
      exact WithinO.close this.2 hsp hQ
    · intro q h1 h2
      have hq := (mem_otherCells h q).mpr ⟨h1, h2⟩
      have h0 := Nat.pos_iff_ne_zero.mp (Finset.card_pos.mpr ⟨q, hq⟩)
      simp only
      rw [if_neg h0] at f7
      rw [if_neg h0] at f7 ⊢
      rw [w8 q hq] at f7
      exact WithinO.close f7 hsp hQ
    · intro hall
      have : otherCells g S = ∅ := by
        rw [Finset.eq_empty_iff_forall_notMem]
        intro q hq
        have := (mem_otherCells h q).mp hq
        exact this.2 (hall q this.1)
      simp [this]
    · rw [markedCount_card, hnc]
      simp only [Prod.mk.injEq, true_and]
      omega

/-! ## without rounding it is the exact computation -/

theorem shrinkF_id : ∀ (k : Nat) (n : BigNumber), shrinkF id k n = shrink k n := by
  intro k
  induction k with
  | zero => intro n; rfl
  | succ k ih => intro n; simp only [shrinkF, shrink, id, ih]

theorem becomeSmallerF_id (n : BigNumber) (t : ℚ) : becomeSmallerF id n t = becomeSmaller n t := by
  unfold becomeSmallerF becomeSmaller
  rw [shrinkF_id]

theorem mulUsizeF_id (n : BigNumber) (k : Nat) : mulUsizeF id n k = mulUsize n k := by
  unfold mulUsizeF mulUsize
  rw [becomeSmallerF_id]
  rfl

theorem mulF_id (n k : BigNumber) : mulF id n k = mul n k := by
  unfold mulF mul
  rw [becomeSmallerF_id]
  rfl

theorem lowerF_id : ∀ (d : Nat) (x : ℚ), lowerF id d x = lower d x := by
  intro d
  induction d with
  | zero => intro x; rfl
  | succ d ih => intro x; rw [lowerF, lower, ih]; rfl

theorem raiseF_id : ∀ (d : Nat) (x : ℚ), raiseF id d x = raise d x := by
  intro d
  induction d with
  | zero => intro x; rfl
  | succ d ih => intro x; rw [raiseF, raise, ih]; rfl

theorem addF_id (n k : BigNumber) : addF id n k = add n k := by
  unfold addF add
  rw [becomeSmallerF_id, lowerF_id, lowerF_id]
  rfl

theorem divBigF_id (n k : BigNumber) : divBigF id n k = divBig n k := by
  unfold divBigF divBig
  rw [raiseF_id, lowerF_id]
  rfl

theorem chooseLoopF_id (n : Nat) : ∀ (m i : Nat) (c : BigNumber), chooseLoopF id n m i c = chooseLoop n m i c := by
  intro m
  induction m with
  | zero => intro i c; rfl
  | succ m ih =>
    intro i c
    rw [chooseLoopF, chooseLoop, becomeSmallerF_id]
    simp only [id, ih]

theorem bigCF_id (n k : Nat) : bigCF id n k = bigC n k := by
  unfold bigCF bigC chooseCoreF chooseCore
  simp only [chooseLoopF_id, becomeSmallerF_id]

/-- C77: with no rounding the floating point model is the exact model of C32. -/
theorem calPossibilityF_id (g : Board) (minenum : ℚ) : calPossibilityF id g minenum = calPossibility g minenum := by
  have e1 : ∀ tabs s i, otherWaysF id tabs s i = otherWays tabs s i := by
    intros; unfold otherWaysF otherWays; simp only [mulUsizeF_id]
  have e2 : ∀ O i k v, addAtF id O i k v = addAt O i k v := by
    intros; unfold addAtF addAt; simp only [addF_id]
  have e3 : ∀ tabs unk ways m s, otherBlockF id tabs unk ways m s = otherBlock tabs unk ways m s := by
    intros; funext O i; unfold otherBlockF otherBlock; simp only [e1, e2, mulF_id]
  have e4 : ∀ tabs unk ways m, otherChoiceF id tabs unk ways m = otherChoice tabs unk ways m := by
    intros; funext O s; unfold otherChoiceF otherChoice; simp only [e1, e2, e3]
  have e5 : ∀ tabs unk ways m, possOtherF id tabs unk ways m = possOther tabs unk ways m := by
    intros; unfold possOtherF possOther; simp only [e4]
  have e6 : ∀ tabs ways O, possAllF id tabs ways O = possAll tabs ways O := by
    intros; unfold possAllF possAll; simp only [mulF_id, addF_id]
  have e7 : ∀ tabs O i c, possCellF id tabs O i c = possCell tabs O i c := by
    intros; unfold possCellF possCell; simp only [mulUsizeF_id, addF_id]
  have e8 : ∀ tabs unk ways O, possRestF id tabs unk ways O = possRest tabs unk ways O := by
    intros; unfold possRestF possRest; simp only [mulUsizeF_id, addF_id, mulF_id]
  have e9 : ∀ tabs O T i B, possBlockF id tabs O T i B = possBlock tabs O T i B := by
    intros; unfold possBlockF possBlock; simp only [e7, divBigF_id]
  unfold calPossibilityF calPossibility
  simp only [e5, e6, e8, e9, bigCF_id, divBigF_id, id]
  rfl

/-! ## what the tolerance means -/

theorem _root_.Ms.Spec.CloseO.nan_iff {δ : ℚ} {v x : Option ℚ} (h : CloseO δ v x) : x = none ↔ v = none := by
  match v, x with
  | none, none => simp
  | some v, some x => simp
  | none, some _ => exact h.elim
  | some _, none => exact h.elim

theorem _root_.Ms.Spec.CloseO.zero_iff {δ : ℚ} (hδ0 : 0 ≤ δ) (hδ : δ < 1) {v x : Option ℚ} (h : CloseO δ v x) : x = some 0 ↔ v = some 0 := by
  match v, x with
  | none, none => simp
  | some v, some x =>
    have h : |x - v| ≤ v * δ := h
    have hv := (abs_nonneg _).trans h
    simp only [Option.some.injEq]
    constructor
    · rintro rfl
      rw [zero_sub, abs_neg] at h
      have := le_abs_self v
      rcases lt_trichotomy v 0 with h0 | h0 | h0
      · rw [abs_of_neg h0] at h
        nlinarith
      · exact h0
      · nlinarith
    · rintro rfl
      rw [zero_mul, sub_zero] at h
      exact abs_nonpos_iff.mp h
  | none, some _ => exact h.elim
  | some _, none => exact h.elim

theorem tolerance_mono {N M Q R : Nat} (h : N ≤ M) (h' : Q ≤ R) : tolerance N Q ≤ tolerance M R := by
  unfold tolerance
  apply div_le_div_of_nonneg_right _ (by norm_num)
  have : (N + Q + 35) * (Q / 3 + 29) ≤ (M + R + 35) * (R / 3 + 29) := by
    apply Nat.mul_le_mul <;> omega
  exact_mod_cast this

theorem tolerance_nonneg (N Q : Nat) : 0 ≤ tolerance N Q := by
  unfold tolerance
  positivity

/-- Always less than 1. -/
theorem tolerance_lt {N Q : Nat} (h : N ≤ 10 ^ 12) (h' : Q ≤ 789) : tolerance N Q < 1 := by
  refine lt_of_le_of_lt (tolerance_mono h h') ?_
  unfold tolerance
  norm_num

/-- On an expert board (480 cells) with up to a million distributions the relative error is below `2e-7`. -/
theorem tolerance_expert {N Q : Nat} (h : N ≤ 10 ^ 6) (h' : Q ≤ 480) : tolerance N Q ≤ 2 / 10 ^ 7 := by
  refine (tolerance_mono h h').trans ?_
  unfold tolerance
  norm_num

theorem splitCount_le : ∀ P : List (List Pos), splitCount P ≤ 2 ^ P.flatten.length := by
  intro P
  induction P with
  | nil => simp [splitCount]
  | cons l P ih =>
    unfold splitCount at *
    rw [List.map_cons, List.prod_cons, List.flatten_cons, List.length_append, pow_add]
    exact Nat.mul_le_mul (Nat.lt_two_pow_self) ih

/-- With at most 39 cells next to numbers there are never more than `10^12` distributions. -/
theorem splitCount_small {g : Board} {P : List (List Pos)} (h : Groups g P) (hf : Set.ncard {q | Fringe g q} ≤ 39) :
    splitCount P ≤ 10 ^ 12 := by
  refine (splitCount_le P).trans ?_
  have e : {q | Fringe g q} = (P.flatten.toFinset : Set Pos) := by
    ext q
    simp only [Set.mem_ofPred_eq, List.coe_toFinset]
    exact (h.cells q).symm
  rw [e, Set.ncard_coe_finset, List.toFinset_card_of_nodup h.once] at hf
  calc 2 ^ P.flatten.length ≤ 2 ^ 39 := Nat.pow_le_pow_right (by norm_num) hf
    _ ≤ 10 ^ 12 := by norm_num

open Classical in
/-- C77, safe cells: in `f64` a cell next to numbers is reported with probability exactly `0.0` if and only if no layout has a mine
there, on every board of at most 789 covered cells, at most 39 of them next to numbers, that some layout of the given number of
mines explains. -/
theorem C77_safe_exact (g : Board) (hne : g ≠ []) (hv : ∀ p ∈ grid g.row g.col, 0 ≤ g.get p.1 p.2)
    (hQ : (coveredSet g).card ≤ 789) (hF : Set.ncard {q | Fringe g q} ≤ 39) (minenum m : Nat) (hm : m + (markedSet g).card = minenum)
    (h1 : 1 ≤ minenum) (hlay : (layouts g m).Nonempty) :
    ∃ r, calPossibilityF fl64 g minenum = some (.ok r) ∧
      ∀ q, Fringe g q → ∃ p, (q, some p) ∈ r.front ∧ (p = 0 ↔ ∀ A ∈ layouts g m, q ∉ A) := by
  have hc : ∃ τ, ReachConsistent g τ := by
    obtain ⟨A, hA⟩ := hlay
    classical
    unfold layouts at hA
    exact ⟨_, (Finset.mem_filter.mp hA).2.2⟩
  obtain ⟨lo, hi, P, a1, a2, a3, a4⟩ := cal_possibility_float rounds_fl64 g hne hv hc hQ minenum
  have hsp := splitCount_small a3 hF
  have hml : MinesLeftF fl64 g minenum lo hi m := by
    unfold MinesLeftF
    rw [if_pos (by exact_mod_cast h1), Int.floor_natCast]
    exact_mod_cast hm
  obtain ⟨r, r1, r2, r3, r4, -⟩ := (a4 m hml).2 (a1.2 hlay) hsp
  refine ⟨r, r1, fun q hq => ?_⟩
  obtain ⟨e, he, rfl⟩ := List.mem_map.mp ((r3 q).mpr hq)
  have hcl := r4 e he
  have hne : (layouts g m).card ≠ 0 := (Finset.card_pos.mpr hlay).ne'
  have hch : chance g m e.1 = some ((((layouts g m).filter fun A => e.1 ∈ A).card : ℚ) / ((layouts g m).card : ℚ)) := by
    unfold chance
    rw [if_neg hne]
  obtain ⟨q, x⟩ := e
  simp only at hch hcl he ⊢
  have hx : x ≠ none := fun h0 => by
    have := (CloseO.nan_iff hcl).mp h0
    rw [hch] at this
    cases this
  obtain ⟨p, rfl⟩ := Option.ne_none_iff_exists'.mp hx
  refine ⟨p, he, ?_⟩
  have hz := CloseO.zero_iff (tolerance_nonneg _ _) (tolerance_lt hsp hQ) hcl
  rw [hch] at hz
  simp only [Option.some.injEq] at hz
  have hq0 : (((layouts g m).card : Nat) : ℚ) ≠ 0 := by exact_mod_cast hne
  rw [hz, div_eq_zero_iff, or_iff_left hq0]
  rw [Nat.cast_eq_zero, Finset.card_eq_zero, Finset.filter_eq_empty_iff]

/-- The hypotheses hold for one number between covered cells, with two mines. -/
example : exPoss ≠ [] ∧ (∀ p ∈ grid exPoss.row exPoss.col, 0 ≤ exPoss.get p.1 p.2) ∧ (coveredSet exPoss).card ≤ 789 ∧
    Set.ncard {q | Fringe exPoss q} ≤ 39 ∧ 2 + (markedSet exPoss).card = 2 ∧ (layouts exPoss 2).Nonempty := by
  refine ⟨by decide, by decide +kernel, by decide +kernel, ?_, by decide +kernel, exPoss_layouts⟩
  have : {q | Fringe exPoss q} ⊆ (coveredSet exPoss : Set Pos) := fun q hq => by
    have : Fringe exPoss q := hq
    exact mem_coveredSet.mpr this.1
  refine (Set.ncard_le_ncard this (Finset.finite_toSet _)).trans ?_
  rw [Set.ncard_coe_finset]
  decide +kernel

example : calPossibilityF fl64 [[10, 1, 10, 10, 10, 10]] 2 =
    some (.ok ⟨[((0, 0), some (1 / 2)), ((0, 2), some (1 / 2))], some (fl64 (1 / 3)), (1, 2, 4), 2⟩) := by decide +kernel

/-! ## what does not survive rounding -/

/-- The probability of a listed cell. -/
def probAt (r : Option (Except Nat Poss)) (q : Pos) : Option ℚ :=
  match r with
  | some (.ok r) => ((r.front.find? fun e => e.1 = q).bind fun e => e.2)
  | _ => none

/-- C77, refuted for sure mines: a cell that is a mine in every layout can be reported with less than `1.0`
(here `0.99999999999999989`), so comparing a probability with `1.0` does not find the sure mines. -/
theorem C77_sure_mine_below_one : probAt (calPossibility [[10, 10, 10, 10], [1, 10, 1, 10]] 2) (0, 0) = some 1 ∧
    probAt (calPossibilityF fl64 [[10, 10, 10, 10], [1, 10, 1, 10]] 2) (0, 0) = some (1 - 1 / 2 ^ 53) := by
  decide +kernel

/-- C77, refuted: a reported probability can exceed `1.0`. -/
theorem C77_above_one :
    probAt (calPossibilityF fl64 [[10, 10, 10, 2, 1, 10, 10, 10, 10, 10, 3], [10, 10, 10, 10, 10, 10, 10, 10, 3, 10, 10]] 7) (0, 9) =
      some (1 + 1 / 2 ^ 52) ∧
    probAt (calPossibility [[10, 10, 10, 2, 1, 10, 10, 10, 10, 10, 3], [10, 10, 10, 10, 10, 10, 10, 10, 3, 10, 10]] 7) (0, 9) = some 1 := by
  decide +kernel

end Ms.Properties
