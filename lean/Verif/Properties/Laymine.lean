import Verif.Lemmas.Laymine
import Mathlib.Data.Nat.Count
import Mathlib.Data.Int.CardIntervalMod
import Mathlib.Data.Nat.Choose.Basic

/-! # Properties C01, C02, C03, C42: laying mines -/

namespace Ms.Properties
open Spec

/-- **C01** whatever the shuffle does (it is any permutation), `laymine` returns a `row × col` board with
exactly `minenum` mines, none on the start cell, and correct numbers everywhere. -/
theorem C01_laymine (shuffle : List Int → List Int) (hsh : ∀ l, (shuffle l).Perm l)
    (row col minenum X0 Y0 : Nat) (hx : X0 < row) (hy : Y0 < col) (hm : minenum ≤ row * col - 1) :
    ∃ b, laymine shuffle row col minenum X0 Y0 = some b ∧ Rect b row col ∧
      (mines b.view).card = minenum ∧ (X0, Y0) ∉ mines b.view ∧ Numbered b.view := by
  refine ⟨_, laymine_eq hsh hx hy hm, ?_⟩
  set keep : Nat → Bool := fun k => decide (k ≠ X0 + Y0 * row) with hkeep
  set s := shuffle (unshuffled (row * col - 1) minenum)
  have hL := dealt_layout row col keep s
  have hsub : (dealtPos row col keep s).toFinset ⊆ grid row col := by
    intro p hp
    rw [List.mem_toFinset] at hp
    obtain ⟨i, hi, _, _, rfl⟩ := mem_dealtPos.mp hp
    exact posOf_mem hi
  obtain ⟨hp1, hp2⟩ := posOf_idx (p := (X0, Y0)) (mem_grid.mpr ⟨hx, hy⟩)
  have hk : ((List.range (row * col)).filter keep).length = row * col - 1 := by
    have := keepNe_idx (X0 + Y0 * row) (row * col)
    unfold dealIdx at this
    simp only at hp1
    rw [this, if_neg (by omega)]
  refine ⟨hL.rect, ?_, ?_, hL.numbered (by omega) hsub⟩
  · rw [hL.mines (by omega) hsub, List.toFinset_card_of_nodup (dealtPos_nodup _ _ _ _),
      dealtPos_length hk hm (hsh _)]
  · rw [hL.mines (by omega) hsub, List.mem_toFinset, mem_dealtPos]
    rintro ⟨i, _, hki, _, hpos⟩
    rw [← hp2] at hpos
    have := posOf_inj hpos
    simp [hkeep, this] at hki

/-- **C01** exact domain: outside it `laymine` panics. -/
theorem C01_laymine_panics (shuffle : List Int → List Int) (row col minenum X0 Y0 : Nat)
    (h : row * col = 0 ∨ row * col - 1 < minenum) :
    laymine shuffle row col minenum X0 Y0 = none := by
  unfold laymine
  rcases h with h | h
  · rw [if_pos (by omega)]
  · split
    · rfl
    · simp only [if_pos h]

/-- **C01** every layout of `minenum` mines avoiding the start cell is produced by some shuffle. -/
theorem C01_laymine_all_layouts (row col X0 Y0 : Nat) (hx : X0 < row) (hy : Y0 < col)
    (M : Finset Pos) (hM : M ⊆ grid row col) (hs : (X0, Y0) ∉ M) :
    ∃ shuffle : List Int → List Int, (∀ l, (shuffle l).Perm l) ∧
      ∃ b, laymine shuffle row col M.card X0 Y0 = some b ∧ mines b.view = M := by
  set keep : Nat → Bool := fun k => decide (k ≠ X0 + Y0 * row) with hkeep
  obtain ⟨hp1, hp2⟩ := posOf_idx (p := (X0, Y0)) (mem_grid.mpr ⟨hx, hy⟩)
  simp only at hp1
  have hk : ((List.range (row * col)).filter keep).length = row * col - 1 := by
    have := keepNe_idx (X0 + Y0 * row) (row * col)
    unfold dealIdx at this
    rw [this, if_neg (by omega)]
  obtain ⟨s, hsp, hset⟩ := dealt_surj (row := row) (col := col) (keep := keep) hk hM (by
    intro i _ hi
    simp only [hkeep, ne_eq, decide_not, Bool.not_eq_eq_eq_not, Bool.not_true, decide_eq_false_iff_not]
    rintro rfl
    rw [hp2] at hi
    exact hs hi) rfl
  have hcard : M.card ≤ row * col - 1 := by
    have h1 : M ⊆ (grid row col).erase (X0, Y0) := by
      intro p hp
      rw [Finset.mem_erase]
      exact ⟨fun h => hs (h ▸ hp), hM hp⟩
    have := Finset.card_le_card h1
    rwa [Finset.card_erase_of_mem (mem_grid.mpr ⟨hx, hy⟩), card_grid] at this
  classical
  let shuffle : List Int → List Int := fun l => if l = unshuffled (row * col - 1) M.card then s else l
  have hperm : ∀ l, (shuffle l).Perm l := by
    intro l
    simp only [shuffle]
    split
    · rename_i h; rw [h]; exact hsp
    · exact List.Perm.refl _
  refine ⟨shuffle, hperm, _, laymine_eq hperm hx hy hcard, ?_⟩
  have e : shuffle (unshuffled (row * col - 1) M.card) = s := by simp [shuffle]
  rw [e, (dealt_layout row col keep s).mines (by omega) (by rw [hset]; exact hM), hset]

/-- **C01** different arrangements of the shuffled list give different layouts; together with
`C01_laymine_all_layouts` (arrangements ↔ layouts is a bijection) a uniform shuffle gives a uniform
layout. -/
theorem C01_laymine_injective (sh₁ sh₂ : List Int → List Int) (h₁ : ∀ l, (sh₁ l).Perm l)
    (h₂ : ∀ l, (sh₂ l).Perm l) (row col minenum X0 Y0 : Nat) (hx : X0 < row) (hy : Y0 < col)
    (hm : minenum ≤ row * col - 1) (b₁ b₂ : Board)
    (e₁ : laymine sh₁ row col minenum X0 Y0 = some b₁) (e₂ : laymine sh₂ row col minenum X0 Y0 = some b₂)
    (h : mines b₁.view = mines b₂.view) :
    sh₁ (unshuffled (row * col - 1) minenum) = sh₂ (unshuffled (row * col - 1) minenum) := by
  rw [laymine_eq h₁ hx hy hm] at e₁
  rw [laymine_eq h₂ hx hy hm] at e₂
  simp only [Option.some.injEq] at e₁ e₂
  subst e₁ e₂
  set keep : Nat → Bool := fun k => decide (k ≠ X0 + Y0 * row) with hkeep
  obtain ⟨hp1, hp2⟩ := posOf_idx (p := (X0, Y0)) (mem_grid.mpr ⟨hx, hy⟩)
  simp only at hp1
  have hk : ((List.range (row * col)).filter keep).length = row * col - 1 := by
    have := keepNe_idx (X0 + Y0 * row) (row * col)
    unfold dealIdx at this
    rw [this, if_neg (by omega)]
  have hsub : ∀ s, (dealtPos row col keep s).toFinset ⊆ grid row col := by
    intro s p hp
    rw [List.mem_toFinset] at hp
    obtain ⟨i, hi, _, _, rfl⟩ := mem_dealtPos.mp hp
    exact posOf_mem hi
  rw [(dealt_layout _ _ _ _).mines (by omega) (hsub _),
    (dealt_layout _ _ _ _).mines (by omega) (hsub _)] at h
  exact dealt_inj hk hm (h₁ _) (h₂ _) h

example : (∀ l : List Int, (id l).Perm l) ∧ 1 < 3 ∧ 2 < 4 ∧ 5 ≤ 3 * 4 - 1 :=
  ⟨fun _ => .refl _, by omega, by omega, by omega⟩
example : laymine id 3 3 2 1 1 = some [[0, 0, 0], [0, 1, 2], [0, 1, -1]] → False := by decide
example : laymine List.reverse 3 3 2 1 1 = some [[-1, 2, 0], [-1, 2, 0], [1, 1, 0]] := by decide

/-! ## C02 -/

/-- Every cell of the 3x3 block around the start that lies on the board. -/
def startBlock (row col X0 Y0 : Nat) : Finset Pos := (grid row col).filter fun p => Near (X0, Y0) p

theorem startBlock_card (row col X0 Y0 : Nat) :
    (startBlock row col X0 Y0).card = (block row col X0 Y0).length := by
  rw [← List.toFinset_card_of_nodup (nodup_block row col X0 Y0)]
  congr 1
  ext p
  rw [List.mem_toFinset, mem_block_near, startBlock, Finset.mem_filter]

/-- **C02 (partial: boards with at least two rows and two columns)** `laymine_op` returns a board with
exactly `minenum` mines and correct numbers, no mine in the 3x3 block around the start, so the start
cell shows 0.  Missing: one-row and one-column boards, where the code always panics
(`C02_laymine_op_refuted`). -/
theorem C02_laymine_op_partial (shuffle : List Int → List Int) (hsh : ∀ l, (shuffle l).Perm l)
    (row col minenum X0 Y0 : Nat) (hr : 2 ≤ row) (hc : 2 ≤ col) (hx : X0 < row) (hy : Y0 < col)
    (hm : minenum ≤ row * col - (startBlock row col X0 Y0).card) :
    ∃ b, laymineOp shuffle row col minenum X0 Y0 = some b ∧ Rect b row col ∧
      (mines b.view).card = minenum ∧ Disjoint (mines b.view) (startBlock row col X0 Y0) ∧
      Numbered b.view ∧ val b.view (X0, Y0) = 0 := by
  rw [startBlock_card] at hm
  refine ⟨_, laymineOp_eq hsh hr hc hx hy hm, ?_⟩
  set s := shuffle (unshuffled (row * col - (block row col X0 Y0).length) minenum)
  have hL := dealt_layout row col (keepOp row X0 Y0) s
  have hsub : (dealtPos row col (keepOp row X0 Y0) s).toFinset ⊆ grid row col := by
    intro p hp
    rw [List.mem_toFinset] at hp
    obtain ⟨i, hi, _, _, rfl⟩ := mem_dealtPos.mp hp
    exact posOf_mem hi
  have hk := keepOp_count (col := col) (X0 := X0) (Y0 := Y0) (row := row) (by omega)
  have hdis : ∀ p ∈ (dealtPos row col (keepOp row X0 Y0) s).toFinset, ¬ Near (X0, Y0) p := by
    intro p hp hn
    rw [List.mem_toFinset] at hp
    obtain ⟨i, _, hki, _, rfl⟩ := mem_dealtPos.mp hp
    simp only [keepOp, Bool.not_eq_eq_eq_not, Bool.not_true, decide_eq_false_iff_not] at hki
    simp only [Near, posOf] at hn
    omega
  have hm' := hL.mines (by omega) hsub
  refine ⟨hL.rect, ?_, ?_, hL.numbered (by omega) hsub, ?_⟩
  · rw [hm', List.toFinset_card_of_nodup (dealtPos_nodup _ _ _ _),
      dealtPos_length hk hm (hsh _)]
  · rw [hm', Finset.disjoint_left]
    intro p hp hp'
    exact hdis p hp (Finset.mem_filter.mp hp').2
  · have hg : (X0, Y0) ∈ grid row col := mem_grid.mpr ⟨hx, hy⟩
    have := hL.cell _ hg
    show bval _ (X0, Y0) = 0
    rw [this, if_neg]
    · have : adjCount (dealtPos row col (keepOp row X0 Y0) s).toFinset (X0, Y0) = 0 := by
        unfold adjCount
        rw [Finset.card_eq_zero, Finset.filter_eq_empty_iff]
        intro p hp ha
        exact hdis p hp ha.1
      rw [this]; rfl
    · intro h; exact hdis _ h (near_refl _)

/-- **C02 refuted on thin boards** with one row or one column `laymine_op` panics for *every* size, start,
mine count and shuffle (`areaOp` counts cells that are not on the board). -/
theorem C02_laymine_op_refuted (shuffle : List Int → List Int) (hsh : ∀ l, (shuffle l).Perm l)
    (row col minenum X0 Y0 : Nat) (hthin : row = 1 ∨ col = 1) (hx : X0 < row) (hy : Y0 < col) :
    laymineOp shuffle row col minenum X0 Y0 = none := by
  unfold laymineOp
  rw [if_neg (by omega)]
  simp only
  split
  · rfl
  · split
    · rfl
    · rename_i h1 h2
      rw [Nat.sub_add_cancel (by omega)]
      rw [laymineOp_panic]
      · rfl
      · rw [(hsh _).length_eq, unshuffled_length (by omega), keepOp_count (by omega), block_length]
        have hlt : (min row (X0 + 2) - (max 1 X0 - 1)) * (min col (Y0 + 2) - (max 1 Y0 - 1)) <
            areaOp row col X0 Y0 := by
          have hrr : min row (X0 + 2) - (max 1 X0 - 1) ≤ 3 := by omega
          have hcc : min col (Y0 + 2) - (max 1 Y0 - 1) ≤ 3 := by omega
          rcases hthin with rfl | rfl
          · have : min 1 (X0 + 2) - (max 1 X0 - 1) = 1 := by omega
            rw [this, Nat.one_mul]
            unfold areaOp
            rw [if_pos (by omega)]
            split <;> omega
          · have : min 1 (Y0 + 2) - (max 1 Y0 - 1) = 1 := by omega
            rw [this, Nat.mul_one]
            unfold areaOp
            rw [if_pos (by omega)]
            split <;> omega
        omega

/-- **C02** every layout avoiding the 3x3 block is produced by some shuffle. -/
theorem C02_laymine_op_all_layouts (row col X0 Y0 : Nat) (hr : 2 ≤ row) (hc : 2 ≤ col)
    (hx : X0 < row) (hy : Y0 < col) (M : Finset Pos) (hM : M ⊆ grid row col)
    (hs : Disjoint M (startBlock row col X0 Y0)) :
    ∃ shuffle : List Int → List Int, (∀ l, (shuffle l).Perm l) ∧
      ∃ b, laymineOp shuffle row col M.card X0 Y0 = some b ∧ mines b.view = M := by
  have hk := keepOp_count (col := col) (X0 := X0) (Y0 := Y0) (row := row) (by omega)
  set area := row * col - (block row col X0 Y0).length with harea
  obtain ⟨s, hsp, hset⟩ := dealt_surj (row := row) (col := col) (keep := keepOp row X0 Y0) hk hM (by
    intro i hi him
    have hn : posOf row i ∉ startBlock row col X0 Y0 := Finset.disjoint_left.mp hs him
    simp only [startBlock, Finset.mem_filter, not_and] at hn
    have := hn (posOf_mem hi)
    simp only [keepOp, Bool.not_eq_eq_eq_not, Bool.not_true, decide_eq_false_iff_not]
    simp only [Near, posOf] at this
    omega) rfl
  have hcard : M.card ≤ area := by
    have h1 : M ⊆ grid row col \ startBlock row col X0 Y0 := by
      intro p hp
      rw [Finset.mem_sdiff]
      exact ⟨hM hp, Finset.disjoint_left.mp hs hp⟩
    have := Finset.card_le_card h1
    have hsub : startBlock row col X0 Y0 ⊆ grid row col := Finset.filter_subset _ _
    rw [Finset.card_sdiff_of_subset hsub, card_grid, startBlock_card] at this
    exact this
  classical
  let shuffle : List Int → List Int := fun l => if l = unshuffled area M.card then s else l
  have hperm : ∀ l, (shuffle l).Perm l := by
    intro l
    simp only [shuffle]
    split
    · rename_i h; rw [h]; exact hsp
    · exact List.Perm.refl _
  refine ⟨shuffle, hperm, _, laymineOp_eq hperm hr hc hx hy hcard, ?_⟩
  have e : shuffle (unshuffled area M.card) = s := by simp [shuffle]
  rw [← harea, e, (dealt_layout row col (keepOp row X0 Y0) s).mines (by omega) (by rw [hset]; exact hM), hset]

example : 2 ≤ 4 ∧ 2 ≤ 5 ∧ 3 ≤ 4 * 5 - (startBlock 4 5 0 2).card := by decide
example : (laymineOp id 3 4 2 0 0).isSome = true := by decide
example : laymineOp id 1 9 2 0 4 = none :=
  C02_laymine_op_refuted id (fun _ => .refl _) 1 9 2 0 4 (.inl rfl) (by omega) (by omega)

/-! ## C03 -/

/-- **C03** `cal_board_numbers` turns any non-empty rectangle of mines (`-1`) and zeros into a board with the
same mines and correct numbers, each at most 8. -/
theorem C03_cal_board_numbers (b : Board) (r c : Nat) (hr : 0 < r) (hb : Rect b r c)
    (h0 : ∀ p ∈ vcells b.view, val b.view p = 0 ∨ val b.view p = -1) :
    ∃ b', calBoardNumbers b = some b' ∧ Rect b' r c ∧ mines b'.view = mines b.view ∧
      Numbered b'.view ∧ ∀ p ∈ vcells b'.view, val b'.view p ≤ 8 := by
  have hrow : b.row = r := hb.row_eq
  have hcol : b.col = c := hb.col_eq hr
  have hvc : vcells b.view = grid r c := by simp [vcells, Board.view, hrow, hcol]
  rw [hvc] at h0
  obtain ⟨h1, h2⟩ := calBoardNumbers_loop hb h0 (cells r c) (fun p hp => mem_cells_grid.mp hp)
    (nodup_cells r c)
  unfold calBoardNumbers
  rw [if_neg (by omega), hrow, hcol]
  refine ⟨_, rfl, h1, ?_⟩
  rw [cells_toFinset] at h2
  have hM : (grid r c).filter (fun p => bval b p = -1) = mines b.view := by
    unfold mines; rw [hvc]; rfl
  have hL : IsLayout r c ((cells r c).foldl
      (fun b' p => if b'.get p.1 p.2 = -1 then addAround r c b' p.1 p.2 else b') b) (mines b.view) := by
    refine ⟨h1, fun q hq => ?_⟩
    rw [h2 q hq, hM]
    have : q ∈ mines b.view ↔ bval b q = -1 := by
      rw [← hM, Finset.mem_filter]; simp [hq]
    by_cases h : bval b q = -1
    · simp [this, h]
    · rw [if_neg h, if_neg (by rw [this]; exact h)]
  have hsub : mines b.view ⊆ grid r c := by rw [← hM]; exact Finset.filter_subset _ _
  refine ⟨hL.mines hr hsub, hL.numbered hr hsub, ?_⟩
  intro p hp
  have hp' : p ∈ grid r c := by
    rw [vcells] at hp
    have e1 := hL.rect.row_eq; have e2 := hL.rect.col_eq hr
    simp only [Board.view, e1, e2] at hp; exact hp
  show bval _ p ≤ 8
  rw [hL.cell p hp']
  by_cases h : p ∈ mines b.view
  · rw [if_pos h]; omega
  · rw [if_neg h]
    have : adjCount (mines b.view) p ≤ 8 := by
      unfold adjCount
      have hss : (mines b.view).filter (fun q => Adj p q) ⊆ ((block r c p.1 p.2).toFinset).erase p := by
        intro q hq
        rw [Finset.mem_filter] at hq
        rw [Finset.mem_erase, List.mem_toFinset, mem_block_near]
        exact ⟨fun h => hq.2.2 h.symm, hsub hq.1, hq.2.1⟩
      have h9 := length_block_le r c p.1 p.2
      have hpm : p ∈ (block r c p.1 p.2).toFinset := by
        rw [List.mem_toFinset, mem_block_near]; exact ⟨hp', near_refl p⟩
      have := Finset.card_le_card hss
      rw [Finset.card_erase_of_mem hpm, List.toFinset_card_of_nodup (nodup_block _ _ _ _)] at this
      omega
    omega

example : Rect [[0, 0, -1], [-1, 0, 0]] 2 3 := ⟨rfl, by decide⟩
example : calBoardNumbers [[0, 0, -1], [-1, 0, 0]] = some [[1, 2, -1], [-1, 2, 1]] := by decide
/-- The documented caveat: it is not idempotent. -/
example : calBoardNumbers [[1, 2, -1], [-1, 2, 1]] ≠ some [[1, 2, -1], [-1, 2, 1]] := by decide

/-! ## C42 the js shuffle -/

/-- **C42** for every random stream the js shuffle returns a permutation; every random index is in range
(the shuffle never panics: if it has no result, the stream was exhausted while drawing). -/
theorem C42_shuffle_perm (draws : List Nat) (l : List Int) :
    (∀ l' ds, jsShuffle draws l = some (l', ds) → l'.Perm l) ∧
    (jsShuffle draws l = none → ∃ m < l.length, ∃ st, shuffleUpto m draws l = some st ∧
      getRandomInt (m + 1) st.2 = none) :=
  ⟨fun l' ds h => shuffleUpto_perm l.length draws l l' ds le_rfl h,
   fun h => shuffleUpto_none l.length draws l le_rfl h⟩

/-- **C42** `get_random_int(limit)` is below its limit. -/
theorem C42_random_int_lt (limit : Nat) (hl : 0 < limit) (ds ds' : List Nat) (id : Nat)
    (h : getRandomInt limit ds = some (id, ds')) : id < limit := getRandomInt_lt hl h

/-- **C42** every arrangement of a list (shorter than 2^32) is reached by some random stream. -/
theorem C42_shuffle_all (l t : List Int) (hl : l.length < 2 ^ 32) (ht : t.Perm l) :
    ∃ draws, jsShuffle draws l = some (t, []) := by
  obtain ⟨draws, h⟩ := shuffleUpto_surj l.length l t le_rfl hl ht (by
    rw [List.drop_eq_nil_of_le (by rw [ht.length_eq]), List.drop_length])
  exact ⟨draws, by have := h []; simpa [jsShuffle, shuffleUpto] using this⟩

/-- **C42** rejection sampling is unbiased: among the accepted 32-bit draws every residue below `limit`
occurs equally often, namely `(2^32-1)/limit` times. -/
theorem C42_random_int_unbiased (limit : Nat) (hl : 0 < limit) (r : Nat) (hr : r < limit) :
    ((Finset.range (2 ^ 32)).filter fun t =>
      getRandomInt limit [t] = some (r, [])).card = (2 ^ 32 - 1) / limit := by
  have h0 : ∀ t, (getRandomInt limit [t] = some (r, [])) ↔
      t < (2 ^ 32 - 1) / limit * limit ∧ t % limit = r := by
    intro t
    unfold getRandomInt
    rw [if_neg (by omega)]
    by_cases h : t < (2 ^ 32 - 1) / limit * limit
    · rw [if_pos h, Option.some.injEq, Prod.mk.injEq]
      exact ⟨fun hh => ⟨h, hh.1⟩, fun hh => ⟨hh.2, rfl⟩⟩
    · rw [if_neg h]
      unfold getRandomInt
      rw [if_neg (by omega)]
      exact ⟨fun hh => by simp at hh, fun hh => absurd hh.1 h⟩
  have hle : (2 ^ 32 - 1) / limit * limit ≤ 2 ^ 32 - 1 := Nat.div_mul_le_self _ _
  have e : (Finset.range (2 ^ 32)).filter (fun t => getRandomInt limit [t] = some (r, [])) =
      (Finset.range ((2 ^ 32 - 1) / limit)).image (fun k => k * limit + r) := by
    ext t
    simp only [Finset.mem_filter, Finset.mem_range, Finset.mem_image, h0]
    constructor
    · rintro ⟨_, h2, h3⟩
      refine ⟨t / limit, ?_, ?_⟩
      · rw [Nat.div_lt_iff_lt_mul hl]; exact h2
      · rw [← h3, Nat.mul_comm]; exact Nat.div_add_mod t limit
    · rintro ⟨k, hk, rfl⟩
      have : k * limit + r < (2 ^ 32 - 1) / limit * limit := by
        calc k * limit + r < k * limit + limit := by omega
          _ = (k + 1) * limit := by ring
          _ ≤ _ := Nat.mul_le_mul_right _ hk
      refine ⟨by omega, this, ?_⟩
      rw [Nat.mul_comm, Nat.mul_add_mod, Nat.mod_eq_of_lt hr]
  rw [e, Finset.card_image_of_injective, Finset.card_range]
  intro a b hab
  simp only [Nat.add_right_cancel_iff] at hab
  exact Nat.eq_of_mul_eq_mul_right hl hab

example : jsShuffle [0, 1] [7, 8, 9] = some ([8, 9, 7], []) := by decide

end Ms.Properties
