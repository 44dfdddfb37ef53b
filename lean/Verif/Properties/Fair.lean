import Verif.Lemmas.Fair
import Verif.Properties.Laymine
import Verif.Model.Gen

/-! # C76: random boards are fair -/

namespace Ms.Properties
open Ms Ms.Spec Nat

/-- **C76** `laymine`: each board with the right number of mines and a safe start is left by exactly
`minenum! * (row * col - 1 - minenum)!` of the `(row * col - 1)!` permutations. -/
theorem C76_laymine (row col minenum X0 Y0 : Nat) (hx : X0 < row) (hy : Y0 < col) (b : Board)
    (hb : MineBoard b row col minenum) (hs : (X0, Y0) ∉ mines b.view) :
    (Finset.univ.filter fun σ : Equiv.Perm (Fin (row * col - 1)) =>
      laymine (rearranged σ) row col minenum X0 Y0 = some b).card = minenum ! * (row * col - 1 - minenum)! := by
  obtain ⟨hp1, hp2⟩ := posOf_idx (p := (X0, Y0)) (mem_grid.mpr ⟨hx, hy⟩)
  simp only at hp1
  have hk : ((List.range (row * col)).filter fun k => decide (k ≠ X0 + Y0 * row)).length = row * col - 1 := by
    have := keepNe_idx (X0 + Y0 * row) (row * col)
    unfold dealIdx at this
    rw [this, if_neg (by omega)]
  have hcard : minenum ≤ row * col - 1 := by
    have h1 : mines b.view ⊆ (grid row col).erase (X0, Y0) := by
      intro p hp
      rw [Finset.mem_erase]
      refine ⟨fun h => hs (h ▸ hp), ?_⟩
      rw [mines, Finset.mem_filter, vcells] at hp
      simp only [Board.view, hb.rect.row_eq, hb.rect.col_eq (by omega)] at hp
      exact hp.1
    have := Finset.card_le_card h1
    rwa [Finset.card_erase_of_mem (mem_grid.mpr ⟨hx, hy⟩), card_grid, hb.count] at this
  rw [← fair_deal hk (by omega) hcard hb ?_]
  · congr 1
    refine Finset.filter_congr fun σ _ => ?_
    rw [laymine_eq (rearranged_perm σ) hx hy hcard, Option.some.injEq]
  · intro i _ hi
    simp only [ne_eq, decide_not, Bool.not_eq_eq_eq_not, Bool.not_true, decide_eq_false_iff_not]
    rintro rfl
    rw [hp2] at hi
    exact hs hi

/-- not void: a board with two mines -/
example : (Finset.univ.filter fun σ : Equiv.Perm (Fin 8) =>
    laymine (rearranged σ) 3 3 2 1 1 = some [[-1, 2, 0], [-1, 2, 0], [1, 1, 0]]).card = 2 * 720 :=
  C76_laymine 3 3 2 1 1 (by omega) (by omega) _ ⟨⟨rfl, by decide⟩, by unfold Numbered; decide +kernel, by decide +kernel⟩
    (by decide +kernel)

theorem laymineOp_count (row col minenum X0 Y0 : Nat) (hr : 2 ≤ row) (hc : 2 ≤ col) (hx : X0 < row) (hy : Y0 < col) (b : Board)
    (hb : MineBoard b row col minenum) (hs : Disjoint (mines b.view) (startBlock row col X0 Y0)) :
    minenum ≤ row * col - (block row col X0 Y0).length ∧
    (Finset.univ.filter fun σ : Equiv.Perm (Fin (row * col - (block row col X0 Y0).length)) =>
      laymineOp (rearranged σ) row col minenum X0 Y0 = some b).card =
      minenum ! * (row * col - (block row col X0 Y0).length - minenum)! := by
  have hM : mines b.view ⊆ grid row col := by
    intro p hp
    rw [mines, Finset.mem_filter, vcells] at hp
    simp only [Board.view, hb.rect.row_eq, hb.rect.col_eq (by omega)] at hp
    exact hp.1
  have hk := keepOp_count (col := col) (X0 := X0) (Y0 := Y0) (row := row) (by omega)
  have hcard : minenum ≤ row * col - (block row col X0 Y0).length := by
    have h1 : mines b.view ⊆ grid row col \ startBlock row col X0 Y0 := by
      intro p hp
      rw [Finset.mem_sdiff]
      exact ⟨hM hp, Finset.disjoint_left.mp hs hp⟩
    have := Finset.card_le_card h1
    have hsub : startBlock row col X0 Y0 ⊆ grid row col := Finset.filter_subset _ _
    rw [Finset.card_sdiff_of_subset hsub, card_grid, startBlock_card, hb.count] at this
    exact this
  refine ⟨hcard, ?_⟩
  rw [← fair_deal hk (by omega) hcard hb ?_]
  · congr 1
    refine Finset.filter_congr fun σ _ => ?_
    rw [laymineOp_eq (rearranged_perm σ) hr hc hx hy hcard, Option.some.injEq]
  · intro i hi him
    have hn : posOf row i ∉ startBlock row col X0 Y0 := Finset.disjoint_left.mp hs him
    simp only [startBlock, Finset.mem_filter, not_and] at hn
    have := hn (posOf_mem hi)
    simp only [keepOp, Bool.not_eq_eq_eq_not, Bool.not_true, decide_eq_false_iff_not]
    simp only [Near, posOf] at this
    omega

/-- **C76** `laymine_op`: each board with the right number of mines and none in the block of the start is left by equally many
permutations of the `area` places outside the block. -/
theorem C76_laymine_op (row col minenum X0 Y0 area : Nat) (hr : 2 ≤ row) (hc : 2 ≤ col) (hx : X0 < row) (hy : Y0 < col)
    (ha : area = row * col - (startBlock row col X0 Y0).card) (b : Board)
    (hb : MineBoard b row col minenum) (hs : Disjoint (mines b.view) (startBlock row col X0 Y0)) :
    (Finset.univ.filter fun σ : Equiv.Perm (Fin area) =>
      laymineOp (rearranged σ) row col minenum X0 Y0 = some b).card = minenum ! * (area - minenum)! := by
  rw [startBlock_card] at ha
  subst ha
  exact (laymineOp_count row col minenum X0 Y0 hr hc hx hy b hb hs).2

/-- not void -/
example : (Finset.univ.filter fun σ : Equiv.Perm (Fin 5) =>
    laymineOp (rearranged σ) 3 3 2 0 0 = some [[0, 0, 0], [1, 2, 1], [-1, 2, -1]]).card = 2 * 6 :=
  C76_laymine_op 3 3 2 0 0 5 (by omega) (by omega) (by omega) (by omega) (by decide +kernel) _
    ⟨⟨rfl, by decide⟩, by unfold Numbered; decide +kernel, by decide +kernel⟩ (by decide +kernel)

/-! ## boards that can be solved -/

/-- The shuffles of the tries `0, …, n - 1`. -/
def tries {n area : Nat} (σ : Fin n → Equiv.Perm (Fin area)) (k : Nat) : List Int → List Int :=
  if h : k < n then rearranged (σ ⟨k, h⟩) else id

theorem swap_some {b₁ b₂ : Board} (b : Board) :
    Equiv.swap (some b₁) (some b₂) (some b) = some (Equiv.swap b₁ b₂ b) := by
  by_cases h1 : b = b₁
  · subst h1; simp
  · by_cases h2 : b = b₂
    · subst h2; simp
    · rw [Equiv.swap_apply_of_ne_of_ne (by simpa using h1) (by simpa using h2), Equiv.swap_apply_of_ne_of_ne h1 h2]

theorem swap_none {b₁ b₂ : Board} : Equiv.swap (some b₁) (some b₂) none = none :=
  Equiv.swap_apply_of_ne_of_ne (by simp) (by simp)

/-- exchanging two boards of the same kind in every try exchanges them in the result -/
theorem loop_swap {sh sh' : Nat → List Int → List Int} {row col m x0 y0 : Nat} {b₁ b₂ : Board}
    (hacc : isSolvable b₁ x0 y0 = isSolvable b₂ x0 y0) : ∀ (fuel times : Nat),
    (∀ k, times ≤ k → k ≤ times + fuel → laymineOp (sh' k) row col m x0 y0 = Equiv.swap (some b₁) (some b₂) (laymineOp (sh k) row col m x0 y0)) →
    laymineSolvableLoop sh' row col m x0 y0 times fuel =
      (laymineSolvableLoop sh row col m x0 y0 times fuel).map fun r => (Equiv.swap b₁ b₂ r.1, r.2) := by
  intro fuel
  induction fuel with
  | zero =>
    intro times h
    unfold laymineSolvableLoop
    rw [h times le_rfl (by omega)]
    cases laymineOp (sh times) row col m x0 y0 with
    | none => rw [swap_none]; rfl
    | some b => rw [swap_some]; rfl
  | succ fuel ih =>
    intro times h
    unfold laymineSolvableLoop
    rw [h times le_rfl (by omega)]
    cases laymineOp (sh times) row col m x0 y0 with
    | none => rw [swap_none]; rfl
    | some b =>
      rw [swap_some]
      have hs : isSolvable (Equiv.swap b₁ b₂ b) x0 y0 = isSolvable b x0 y0 := by
        by_cases h1 : b = b₁
        · subst h1; rw [Equiv.swap_apply_left, hacc]
        · by_cases h2 : b = b₂
          · subst h2; rw [Equiv.swap_apply_right, hacc]
          · rw [Equiv.swap_apply_of_ne_of_ne h1 h2]
      simp only [Option.bind_eq_bind, Option.bind_some, hs]
      cases isSolvable b x0 y0 with
      | none => rfl
      | some a =>
        cases a
        · simpa using ih (times + 1) fun k h1 h2 => h k (by omega) (by omega)
        · rfl

/-- exchanging two boards in the last try exchanges them among the failures -/
theorem loop_last {sh sh' : Nat → List Int → List Int} {row col m x0 y0 : Nat} {b₁ b₂ : Board} : ∀ (fuel times : Nat),
    (∀ k, times ≤ k → k < times + fuel → sh' k = sh k) →
    laymineOp (sh' (times + fuel)) row col m x0 y0 = Equiv.swap (some b₁) (some b₂) (laymineOp (sh (times + fuel)) row col m x0 y0) →
    laymineSolvableLoop sh' row col m x0 y0 times fuel =
      (laymineSolvableLoop sh row col m x0 y0 times fuel).map fun r => (if r.2 then r.1 else Equiv.swap b₁ b₂ r.1, r.2) := by
  intro fuel
  induction fuel with
  | zero =>
    intro times _ h
    unfold laymineSolvableLoop
    rw [Nat.add_zero] at h
    rw [h]
    cases laymineOp (sh times) row col m x0 y0 with
    | none => rw [swap_none]; rfl
    | some b => rw [swap_some]; rfl
  | succ fuel ih =>
    intro times h1 h2
    unfold laymineSolvableLoop
    rw [h1 times le_rfl (by omega)]
    cases laymineOp (sh times) row col m x0 y0 with
    | none => rfl
    | some b =>
      simp only [Option.bind_eq_bind, Option.bind_some]
      cases isSolvable b x0 y0 with
      | none => rfl
      | some a =>
        cases a
        · simpa using ih (times + 1) (fun k h3 h4 => h1 k (by omega) (by omega)) (by
            rw [show times + 1 + fuel = times + (fuel + 1) by omega]; exact h2)
        · rfl

/-- **C76** `laymine_solvable`: any two boards it may return with `true` are returned equally often, over all shuffles of all
tries; and any two boards at all are returned equally often with `false`. -/
theorem C76_laymine_solvable (row col minenum x0 y0 maxTimes area : Nat) (hr : 2 ≤ row) (hc : 2 ≤ col) (hx : x0 < row)
    (hy : y0 < col) (ha : area = row * col - (startBlock row col x0 y0).card) (b₁ b₂ : Board)
    (h₁ : MineBoard b₁ row col minenum) (s₁ : Disjoint (mines b₁.view) (startBlock row col x0 y0))
    (h₂ : MineBoard b₂ row col minenum) (s₂ : Disjoint (mines b₂.view) (startBlock row col x0 y0)) :
    let times (b : Board) (flag : Bool) : Nat := (Finset.univ.filter fun σ : Fin (maxTimes + 1) → Equiv.Perm (Fin area) =>
      laymineSolvable (tries σ) row col minenum x0 y0 maxTimes = some (b, flag)).card
    (isSolvable b₁ x0 y0 = some true → isSolvable b₂ x0 y0 = some true → times b₁ true = times b₂ true) ∧
      times b₁ false = times b₂ false := by
  rw [startBlock_card] at ha
  subst ha
  obtain ⟨_, c₁⟩ := laymineOp_count row col minenum x0 y0 hr hc hx hy b₁ h₁ s₁
  obtain ⟨_, c₂⟩ := laymineOp_count row col minenum x0 y0 hr hc hx hy b₂ h₂ s₂
  obtain ⟨π, hπ⟩ := fiber_swap (fun σ : Equiv.Perm (Fin (row * col - (block row col x0 y0).length)) =>
    laymineOp (rearranged σ) row col minenum x0 y0) (some b₁) (some b₂) (c₁.trans c₂.symm)
  intro times
  constructor
  · intro a₁ a₂
    simp only [times]
    refine Finset.card_equiv (Equiv.piCongrRight fun _ => π) fun σ => ?_
    simp only [Finset.mem_filter, Finset.mem_univ, true_and]
    unfold laymineSolvable
    rw [loop_swap (sh := tries σ) (sh' := tries (Equiv.piCongrRight (fun _ => π) σ)) (b₁ := b₁) (b₂ := b₂) (a₁.trans a₂.symm) maxTimes 0 ?_]
    · cases laymineSolvableLoop (tries σ) row col minenum x0 y0 0 maxTimes with
      | none => simp
      | some r =>
        obtain ⟨b, f⟩ := r
        simp only [Option.some.injEq, Prod.mk.injEq, Option.map_some]
        refine and_congr_left fun _ => ?_
        constructor
        · rintro rfl; exact Equiv.swap_apply_left _ _
        · intro h; rw [Equiv.swap_apply_eq_iff, Equiv.swap_apply_right] at h; exact h
    · intro k _ hk
      unfold tries
      rw [dif_pos (by omega), dif_pos (by omega)]
      exact hπ _
  · simp only [times]
    refine Finset.card_equiv (Equiv.piCongrRight fun k : Fin (maxTimes + 1) => if k.val = maxTimes then π else Equiv.refl _) fun σ => ?_
    simp only [Finset.mem_filter, Finset.mem_univ, true_and]
    unfold laymineSolvable
    rw [loop_last (sh := tries σ) (b₁ := b₁) (b₂ := b₂)
      (sh' := tries (Equiv.piCongrRight (fun k : Fin (maxTimes + 1) => if k.val = maxTimes then π else Equiv.refl _) σ)) maxTimes 0 ?_ ?_]
    · cases laymineSolvableLoop (tries σ) row col minenum x0 y0 0 maxTimes with
      | none => simp
      | some r =>
        obtain ⟨b, f⟩ := r
        simp only [Option.some.injEq, Prod.mk.injEq, Option.map_some]
        refine and_congr_left fun hf => ?_
        rw [hf]
        constructor
        · rintro rfl; exact Equiv.swap_apply_left _ _
        · intro h
          have h : Equiv.swap b₁ b₂ b = b₂ := h
          rw [Equiv.swap_apply_eq_iff, Equiv.swap_apply_right] at h; exact h
    · intro k _ hk
      unfold tries
      rw [dif_pos (by omega), dif_pos (by omega)]
      rw [Equiv.piCongrRight_apply, Pi.map_apply, if_neg (by show ¬ k = maxTimes; omega)]
      rfl
    · unfold tries
      rw [dif_pos (by omega), dif_pos (by omega)]
      rw [Equiv.piCongrRight_apply, Pi.map_apply, if_pos (by show 0 + maxTimes = maxTimes; omega)]
      exact hπ _

/-- not void: two boards that can be solved -/
example : MineBoard [[0, 0, 0], [0, 1, 1], [0, 1, -1]] 3 3 1 ∧ MineBoard [[0, 0, 0], [1, 1, 0], [-1, 1, 0]] 3 3 1 ∧
    isSolvable [[0, 0, 0], [0, 1, 1], [0, 1, -1]] 0 0 = some true ∧ isSolvable [[0, 0, 0], [1, 1, 0], [-1, 1, 0]] 0 0 = some true :=
  ⟨⟨⟨rfl, by decide⟩, by unfold Numbered; decide +kernel, by decide +kernel⟩,
    ⟨⟨rfl, by decide⟩, by unfold Numbered; decide +kernel, by decide +kernel⟩, by decide +kernel, by decide +kernel⟩

/-! ## the shuffle of the js build -/

/-- the places after `k` swaps -/
def swapsUpto {n : Nat} (ids : ∀ i : Fin n, Fin (i.val + 1)) : Nat → Equiv.Perm (Fin n)
  | 0 => 1
  | k + 1 => if h : k < n then swapsUpto ids k * Equiv.swap ⟨k, h⟩ ⟨(ids ⟨k, h⟩).val, by have := (ids ⟨k, h⟩).isLt; simp only at this; omega⟩
    else swapsUpto ids k

theorem swapsUpto_fix {n : Nat} (ids : ∀ i : Fin n, Fin (i.val + 1)) : ∀ k (i : Fin n), k ≤ i.val → swapsUpto ids k i = i := by
  intro k
  induction k with
  | zero => intro i _; rfl
  | succ k ih =>
    intro i hi
    have h : k < n := by omega
    rw [swapsUpto, dif_pos h, Equiv.Perm.mul_apply, Equiv.swap_apply_of_ne_of_ne]
    · exact ih i (by omega)
    · intro e; rw [e] at hi; simp only at hi; omega
    · intro e
      rw [e] at hi
      have := (ids ⟨k, h⟩).isLt
      simp only at this hi
      omega

theorem swapsUpto_inj {n : Nat} {ids ids' : ∀ i : Fin n, Fin (i.val + 1)} : ∀ k, k ≤ n → swapsUpto ids k = swapsUpto ids' k →
    ∀ i : Fin n, i.val < k → ids i = ids' i := by
  intro k
  induction k with
  | zero => intro _ _ i hi; omega
  | succ k ih =>
    intro hk e i hi
    have h : k < n := by omega
    have back : ∀ a : ∀ i : Fin n, Fin (i.val + 1), swapsUpto a (k + 1) ⟨(a ⟨k, h⟩).val, by have := (a ⟨k, h⟩).isLt; simp only at this; omega⟩ = ⟨k, h⟩ := by
      intro a
      rw [swapsUpto, dif_pos h, Equiv.Perm.mul_apply, Equiv.swap_apply_right]
      exact swapsUpto_fix a k ⟨k, h⟩ le_rfl
    have hid : ids ⟨k, h⟩ = ids' ⟨k, h⟩ := by
      have h1 := back ids
      have h2 := back ids'
      rw [← e] at h2
      have := (swapsUpto ids (k + 1)).injective (h2.trans h1.symm)
      simp only [Fin.mk.injEq] at this
      exact Fin.ext this.symm
    by_cases hik : i.val = k
    · have : i = ⟨k, h⟩ := Fin.ext hik
      rw [this]
      exact hid
    · refine ih (by omega) ?_ i (by omega)
      rw [swapsUpto, swapsUpto, dif_pos h, dif_pos h] at e
      simp only [hid] at e
      exact mul_right_cancel e

theorem rearranged_swap {n : Nat} {l : List Int} (hl : l.length = n) (σ : Equiv.Perm (Fin n)) (i j : Fin n) :
    swapAt (rearranged σ l) i.val j.val = some (rearranged (σ * Equiv.swap i j) l) := by
  have hlen : (rearranged σ l).length = n := by rw [rearranged_eq hl]; simp
  unfold swapAt
  rw [List.getElem?_eq_getElem (by omega), List.getElem?_eq_getElem (by omega)]
  simp only [Option.some.injEq]
  refine List.ext_getElem (by rw [List.length_set, List.length_set, (rearranged_perm _ _).length_eq, (rearranged_perm _ _).length_eq]) fun k h1 h2 => ?_
  have hk : k < n := by simpa [hlen] using h1
  have e : ∀ (τ : Equiv.Perm (Fin n)) (k : Nat) (hk : k < n) (h : k < (rearranged τ l).length),
      (rearranged τ l)[k]'h = l[(τ ⟨k, hk⟩).val]'(by rw [hl]; exact (τ ⟨k, hk⟩).isLt) := by
    intro τ k hk h
    simp only [rearranged_eq hl, List.getElem_ofFn]
  rw [List.getElem_set, e (σ * Equiv.swap i j) k hk h2]
  by_cases hj : j.val = k
  · rw [if_pos hj, e σ i.val i.isLt]
    have : (⟨k, hk⟩ : Fin n) = j := Fin.ext hj.symm
    simp only [this, Equiv.Perm.mul_apply, Equiv.swap_apply_right]
  · rw [if_neg hj, List.getElem_set]
    by_cases hi : i.val = k
    · rw [if_pos hi, e σ j.val j.isLt]
      have : (⟨k, hk⟩ : Fin n) = i := Fin.ext hi.symm
      simp only [this, Equiv.Perm.mul_apply, Equiv.swap_apply_left]
    · rw [if_neg hi, e σ k hk]
      rw [Equiv.Perm.mul_apply, Equiv.swap_apply_of_ne_of_ne]
      · intro h; exact hi (by rw [← h])
      · intro h; exact hj (by rw [← h])

/-- the draws `ts 1, ts 2, …` -/
def drawsOf {n : Nat} (ts : Fin n → Nat) (k : Nat) : List Nat := (rng 1 k).map fun i => if h : i < n then ts ⟨i, h⟩ else 0

theorem shuffleUpto_ids {n : Nat} {l : List Int} (hl : l.length = n) (ids : ∀ i : Fin n, Fin (i.val + 1)) (ts : Fin n → Nat)
    (ht : ∀ i : Fin n, ts i < (2 ^ 32 - 1) / (i.val + 1) * (i.val + 1)) (hi : ∀ i : Fin n, ts i % (i.val + 1) = ids i) :
    ∀ k, k ≤ n → ∀ rest, shuffleUpto k (drawsOf ts k ++ rest) l = some (rearranged (swapsUpto ids k) l, rest) := by
  have h0 : rearranged (1 : Equiv.Perm (Fin n)) l = l := by
    rw [rearranged_eq hl]
    exact List.ext_getElem (by simp [hl]) fun i h1 h2 => by simp
  intro k
  induction k with
  | zero => intro _ rest; simp [shuffleUpto, drawsOf, rng, swapsUpto, h0]
  | succ k ih =>
    intro hk rest
    have h : k < n := by omega
    by_cases h1 : 1 ≤ k
    · have ed : drawsOf ts (k + 1) = drawsOf ts k ++ [ts ⟨k, h⟩] := by
        unfold drawsOf
        rw [rng_succ h1, List.map_append]
        simp [h]
      rw [shuffleUpto_succ h1, ed, List.append_assoc, ih (by omega)]
      simp only [Option.bind_some, List.singleton_append]
      have hg : getRandomInt (k + 1) (ts ⟨k, h⟩ :: rest) = some ((ids ⟨k, h⟩).val, rest) := by
        unfold getRandomInt
        rw [if_neg (by omega), if_pos (ht ⟨k, h⟩), hi ⟨k, h⟩]
      rw [hg]
      simp only [Option.bind_some]
      have := rearranged_swap hl (swapsUpto ids k) ⟨k, h⟩ ⟨(ids ⟨k, h⟩).val, by have := (ids ⟨k, h⟩).isLt; simp only at this; omega⟩
      simp only at this
      rw [this, swapsUpto, dif_pos h]
      rfl
    · have : k = 0 := by omega
      subst this
      have hz : (ids ⟨0, h⟩).val = 0 := by
        have := (ids ⟨0, h⟩).isLt
        simp only at this
        omega
      have e1 : swapsUpto ids 1 = 1 := by
        rw [swapsUpto, dif_pos h]
        have : (⟨(ids ⟨0, h⟩).val, by omega⟩ : Fin n) = ⟨0, h⟩ := Fin.ext hz
        rw [this, Equiv.swap_self]
        rfl
      rw [e1, h0]
      simp [shuffleUpto, drawsOf, rng]

/-- **C76** the shuffle of the js build is fair: its random indices (one out of `i + 1` for each place `i`) and the permutations
of the places correspond one to one, whatever accepted 32-bit draws they come from.  (`C42_random_int_unbiased`: each index
comes from equally many accepted draws.) -/
theorem C76_js_shuffle (n : Nat) : ∃ Φ : (∀ i : Fin n, Fin (i.val + 1)) ≃ Equiv.Perm (Fin n),
    ∀ (ids : ∀ i : Fin n, Fin (i.val + 1)) (ts : Fin n → Nat), (∀ i, ts i < (2 ^ 32 - 1) / (i.val + 1) * (i.val + 1)) →
      (∀ i, ts i % (i.val + 1) = ids i) → ∀ (l : List Int) (rest : List Nat), l.length = n →
      jsShuffle ((List.ofFn ts).tail ++ rest) l = some (rearranged (Φ ids) l, rest) := by
  have hinj : Function.Injective fun ids : ∀ i : Fin n, Fin (i.val + 1) => swapsUpto ids n := by
    intro a b h
    funext i
    exact swapsUpto_inj n le_rfl h i i.isLt
  have hbij : Function.Bijective fun ids : ∀ i : Fin n, Fin (i.val + 1) => swapsUpto ids n := by
    rw [Fintype.bijective_iff_injective_and_card]
    refine ⟨hinj, ?_⟩
    rw [Fintype.card_pi, Fintype.card_perm, Fintype.card_fin]
    simp only [Fintype.card_fin]
    rw [Fin.prod_univ_eq_prod_range (fun i => i + 1) n, Finset.prod_range_add_one_eq_factorial]
  refine ⟨Equiv.ofBijective _ hbij, fun ids ts ht hi l rest hl => ?_⟩
  have e : (List.ofFn ts).tail = drawsOf ts n := by
    refine List.ext_getElem (by simp [drawsOf, rng]) fun k h1 h2 => ?_
    have hk : 1 + k < n := by simp [drawsOf, rng] at h2; omega
    simp [drawsOf, rng, hk, Nat.add_comm]
    omega
  have := shuffleUpto_ids hl ids ts ht hi n le_rfl rest
  rw [e, Equiv.ofBijective_apply]
  unfold jsShuffle
  rw [hl]
  exact this

/-- such draws exist for every choice of indices of a list of less than `2^32` entries -/
example (n : Nat) (hn : n < 2 ^ 32) (ids : ∀ i : Fin n, Fin (i.val + 1)) : ∃ ts : Fin n → Nat,
    (∀ i, ts i < (2 ^ 32 - 1) / (i.val + 1) * (i.val + 1)) ∧ ∀ i, ts i % (i.val + 1) = ids i := by
  refine ⟨fun i => (ids i).val, fun i => ?_, fun i => Nat.mod_eq_of_lt (ids i).isLt⟩
  have h1 : 1 ≤ (2 ^ 32 - 1) / (i.val + 1) := by
    rw [Nat.le_div_iff_mul_le (by omega)]
    have := i.isLt
    omega
  calc (ids i).val < 1 * (i.val + 1) := by have := (ids i).isLt; omega
    _ ≤ _ := Nat.mul_le_mul_right _ h1

end Ms.Properties
