import Verif.Model.Game
import Verif.SpecGame
import Verif.Lemmas.Misc

namespace Ms
open Spec

theorem shown_eq (g : Board) (p : Pos) : shown g p = bval g p := rfl

/-- covered cells (mark 10 or 12) -/
def cov (r c : Nat) (g : Board) : Finset Pos :=
  (grid r c).filter fun p => bval g p = 10 ∨ bval g p = 12

/-- potential of the `while` loop of `refresh_board` -/
def refreshPot (r c : Nat) (g : Board) (st : List Pos) : Nat :=
  17 * (cov r c g).card + st.length -
    match st with
    | [] => 0
    | p :: _ => if p ∈ cov r c g then 8 else 0

/-- what one visit does -/
theorem refreshVisit_spec {v : View} {g : Board} (hg : Rect g v.row v.col) (loss : Bool) {p : Pos}
    (hp : p ∈ vcells v) :
    let r := refreshVisit v g loss p
    r.1 = g.set p.1 p.2 (openMark v p) ∧
    (r.2.1 = true ↔ loss = true ∨ val v p < 0) ∧
    (∀ q, q ∈ r.2.2 ↔ val v p = 0 ∧ q ∈ cov v.row v.col r.1 ∧ Adj p q) ∧ r.2.2.length ≤ 8 := by
  simp only
  unfold refreshVisit openMark
  by_cases h1 : v.get p.1 p.2 > 0
  · have h1' : val v p > 0 := h1
    rw [if_pos h1]
    refine ⟨?_, ?_, ?_, by simp⟩
    · simp [val, le_of_lt h1]
    · simp only; constructor
      · exact .inl
      · rintro (h | h)
        · exact h
        · omega
    · intro q; constructor
      · simp
      · rintro ⟨h, -⟩; omega
  · rw [if_neg h1]
    by_cases h2 : v.get p.1 p.2 = 0
    · have h2' : val v p = 0 := h2
      rw [if_pos h2]
      have hset : (if 0 ≤ val v p then val v p else 15) = 0 := by simp [h2']
      refine ⟨by simp only [hset], ?_, ?_, ?_⟩
      · simp only; constructor
        · exact .inl
        · rintro (h | h)
          · exact h
          · omega
      · intro q
        unfold cov
        rw [Finset.mem_filter]
        simp only [List.mem_reverse, List.mem_filter, mem_block_near, h2', Adj,
          Bool.and_eq_true, decide_eq_true_eq, Bool.or_eq_true, bval, true_and, Ne]
        have : (p.1 = q.1 ∧ p.2 = q.2) ↔ p = q := Prod.ext_iff.symm
        rw [this]
        tauto
      · simp only [List.length_reverse]
        set l := (block v.row v.col p.1 p.2).filter _
        have hmem : p ∈ block v.row v.col p.1 p.2 := mem_block_near.mpr ⟨hp, near_refl p⟩
        have hl : l.length < (block v.row v.col p.1 p.2).length := by
          apply List.length_filter_lt_length_iff_exists.mpr
          exact ⟨p, hmem, by simp⟩
        have := length_block_le v.row v.col p.1 p.2
        omega
    · rw [if_neg h2]
      have h3 : val v p < 0 := by unfold val; omega
      refine ⟨by simp [not_le.mpr h3], ?_, ?_, by simp⟩
      · simp [h3]
      · intro q; constructor
        · simp
        · rintro ⟨h, -⟩; omega

theorem openMark_not_cov {v : View} {p : Pos} (h : val v p ≤ 8) :
    openMark v p ≠ 10 ∧ openMark v p ≠ 11 ∧ openMark v p ≠ 12 ∧ openMark v p ≠ 14 := by
  unfold openMark; split <;> omega

/-- invariant of the loop -/
structure RInv (v : View) (g0 : Board) (start : List Pos) (O : Finset Pos) (st : List Pos) (g : Board)
    (loss : Bool) : Prop where
  rect : Rect g v.row v.col
  opened : ∀ q ∈ O, q ∈ vcells v ∧ Opens v g0 start q ∧ bval g q = openMark v q
  rest : ∀ q, q ∉ O → bval g q = bval g0 q
  stack : ∀ q ∈ st, q ∈ vcells v ∧ Opens v g0 start q
  starts : ∀ q ∈ start, q ∈ O ∨ q ∈ st
  closed : ∀ p ∈ O, val v p = 0 → ∀ q ∈ vcells v, Adj p q → (bval g0 q = 10 ∨ bval g0 q = 12) →
    q ∈ O ∨ q ∈ st
  lost : loss = true ↔ ∃ q ∈ O, val v q < 0

theorem RInv.step {v : View} {g0 : Board} {start : List Pos} {O : Finset Pos} {st : List Pos} {g : Board}
    {loss : Bool} {p : Pos} (hv : ∀ p ∈ vcells v, val v p ≤ 8)
    (h : RInv v g0 start O (p :: st) g loss) :
    let r := refreshVisit v g loss p
    RInv v g0 start (insert p O) (r.2.2 ++ st) r.1 r.2.1 := by
  have hp := h.stack p (by simp)
  obtain ⟨h1, h2, h3, -⟩ := refreshVisit_spec h.rect loss hp.1
  have hb : ∀ q, bval (refreshVisit v g loss p).1 q = if q = p then openMark v p else bval g q := by
    intro q; rw [h1]; exact bval_set h.rect hp.1 q _
  refine ⟨?_, ?_, ?_, ?_, ?_, ?_, ?_⟩
  · rw [h1]; exact rect_set h.rect _ _ _
  · intro q hq
    rw [hb]
    rcases Finset.mem_insert.mp hq with rfl | hq
    · exact ⟨hp.1, hp.2, by simp⟩
    · refine ⟨(h.opened q hq).1, (h.opened q hq).2.1, ?_⟩
      split
      · next e => rw [e]
      · exact (h.opened q hq).2.2
  · intro q hq
    simp only [Finset.mem_insert, not_or] at hq
    rw [hb, if_neg hq.1]; exact h.rest q hq.2
  · intro q hq
    rcases List.mem_append.mp hq with hq | hq
    · obtain ⟨h0, hc, ha⟩ := (h3 q).mp hq
      unfold cov at hc
      obtain ⟨hm, hc⟩ := Finset.mem_filter.mp hc
      refine ⟨hm, .spread hp.2 h0 hm ha ?_⟩
      have hne : q ≠ p := fun e => ha.2 e.symm
      rw [hb, if_neg hne] at hc
      by_cases hO : q ∈ O
      · have := (h.opened q hO).2.2
        have := openMark_not_cov (hv q hm)
        omega
      · rw [h.rest q hO] at hc; exact hc
    · exact h.stack q (by simp [hq])
  · intro q hq
    rcases h.starts q hq with hq | hq
    · exact .inl (Finset.mem_insert_of_mem hq)
    · rcases List.mem_cons.mp hq with rfl | hq
      · exact .inl (Finset.mem_insert_self _ _)
      · exact .inr (by simp [hq])
  · intro a ha h0 q hq hadj hc
    rcases Finset.mem_insert.mp ha with rfl | ha
    · by_cases hO : q ∈ insert a O
      · exact .inl hO
      · right
        simp only [Finset.mem_insert, not_or] at hO
        apply List.mem_append_left
        rw [h3]
        refine ⟨h0, ?_, hadj⟩
        unfold cov
        refine Finset.mem_filter.mpr ⟨hq, ?_⟩
        rw [hb, if_neg hO.1, h.rest q hO.2]; exact hc
    · rcases h.closed a ha h0 q hq hadj hc with h | h
      · exact .inl (Finset.mem_insert_of_mem h)
      · rcases List.mem_cons.mp h with rfl | h
        · exact .inl (Finset.mem_insert_self _ _)
        · exact .inr (by simp [h])
  · rw [h2, h.lost]
    simp only [Finset.mem_insert, exists_eq_or_imp]
    exact or_comm

theorem refreshPot_step {v : View} {g : Board} (hv : ∀ p ∈ vcells v, val v p ≤ 8)
    (hg : Rect g v.row v.col) (loss : Bool) {p : Pos} (hp : p ∈ vcells v) (st : List Pos) :
    let r := refreshVisit v g loss p
    refreshPot v.row v.col r.1 (r.2.2 ++ st) < refreshPot v.row v.col g (p :: st) := by
  obtain ⟨h1, -, h3, h4⟩ := refreshVisit_spec hg loss hp
  have hb : ∀ q, bval (refreshVisit v g loss p).1 q = if q = p then openMark v p else bval g q := by
    intro q; rw [h1]; exact bval_set hg hp q _
  have hcov : cov v.row v.col (refreshVisit v g loss p).1 = (cov v.row v.col g).erase p := by
    ext q
    unfold cov
    rw [Finset.mem_erase, Finset.mem_filter, Finset.mem_filter, hb]
    by_cases hq : q = p
    · subst hq
      have := openMark_not_cov (hv q hp)
      simp [this.1, this.2.2.1]
    · simp [hq]
  simp only
  unfold refreshPot
  rw [hcov]
  simp only [List.length_append, List.length_cons]
  by_cases hpc : p ∈ cov v.row v.col g
  · rw [Finset.card_erase_of_mem hpc, if_pos hpc]
    have : 0 < (cov v.row v.col g).card := Finset.card_pos.mpr ⟨p, hpc⟩
    omega
  · rw [Finset.erase_eq_of_notMem hpc, if_neg hpc]
    cases hl : (refreshVisit v g loss p).2.2 with
    | nil => simp only [List.length_nil]; omega
    | cons q l =>
      have hq := ((h3 q).mp (by rw [hl]; simp)).2.1
      rw [hcov, Finset.erase_eq_of_notMem hpc] at hq
      rw [hl] at h4
      simp only [List.cons_append, if_pos hq, List.length_cons] at h4 ⊢
      have : 0 < (cov v.row v.col g).card := Finset.card_pos.mpr ⟨q, hq⟩
      omega

theorem refreshLoop_spec {v : View} {g0 : Board} {start : List Pos}
    (hv : ∀ p ∈ vcells v, val v p ≤ 8) : ∀ (fuel : Nat) (st : List Pos) (g : Board) (loss : Bool)
    (O : Finset Pos), RInv v g0 start O st g loss → refreshPot v.row v.col g st ≤ fuel →
    ∃ g' loss' O', refreshLoop v fuel st g loss = some (g', loss') ∧ RInv v g0 start O' [] g' loss' := by
  intro fuel
  induction fuel with
  | zero =>
    intro st g loss O h hf
    cases st with
    | nil => exact ⟨g, loss, O, rfl, h⟩
    | cons p st =>
      have := refreshPot_step hv h.rect loss (h.stack p (by simp)).1 st
      omega
  | succ fuel ih =>
    intro st g loss O h hf
    cases st with
    | nil => exact ⟨g, loss, O, rfl, h⟩
    | cons p st =>
      have := refreshPot_step hv h.rect loss (h.stack p (by simp)).1 st
      exact ih _ _ _ _ (h.step hv) (by omega)

theorem crossWrong_spec {v : View} {g : Board} (hg : Rect g v.row v.col) :
    Rect (crossWrong v g) v.row v.col ∧ ∀ q ∈ vcells v, bval (crossWrong v g) q =
      if bval g q = 11 ∧ val v q ≠ -1 then 14 else bval g q := by
  have key : ∀ (l : List Pos) (d : Board), Rect d v.row v.col → (∀ p ∈ l, p ∈ vcells v) →
      Rect (l.foldl (fun g p =>
        if g.get p.1 p.2 = 11 ∧ v.get p.1 p.2 ≠ -1 then g.set p.1 p.2 14 else g) d) v.row v.col ∧
      ∀ q, bval (l.foldl (fun g p =>
        if g.get p.1 p.2 = 11 ∧ v.get p.1 p.2 ≠ -1 then g.set p.1 p.2 14 else g) d) q =
      if q ∈ l ∧ bval d q = 11 ∧ val v q ≠ -1 then 14 else bval d q := by
    intro l
    induction l with
    | nil => intro d hd _; exact ⟨hd, by simp⟩
    | cons p l ih =>
      intro d hd hl
      simp only [List.foldl_cons]
      have hp := hl p (by simp)
      by_cases hc : d.get p.1 p.2 = 11 ∧ v.get p.1 p.2 ≠ -1
      · rw [if_pos hc]
        obtain ⟨i1, i2⟩ := ih (d.set p.1 p.2 14) (rect_set hd _ _ _) (fun q hq => hl q (by simp [hq]))
        refine ⟨i1, fun q => ?_⟩
        rw [i2, bval_set hd hp]
        by_cases hq : q = p
        · subst hq
          have hc' : bval d q = 11 ∧ val v q ≠ -1 := hc
          simp [hc'.1, hc'.2]
        · simp [hq]
      · rw [if_neg hc]
        obtain ⟨i1, i2⟩ := ih d hd (fun q hq => hl q (by simp [hq]))
        refine ⟨i1, fun q => ?_⟩
        rw [i2]
        by_cases hq : q = p
        · subst hq
          have hc' : ¬ (bval d q = 11 ∧ val v q ≠ -1) := hc
          simp [hc']
        · simp [hq]
  obtain ⟨h1, h2⟩ := key (cells v.row v.col) g hg (fun p hp => mem_cells_grid.mp hp)
  refine ⟨h1, fun q hq => ?_⟩
  have := h2 q
  unfold crossWrong
  rw [this]
  have hq' : q ∈ cells v.row v.col := mem_cells_grid.mpr hq
  simp only [hq', true_and]

open Classical in
/-- The complete behaviour of `refresh_board`. -/
theorem refreshBoard_spec {v : View} {g : Board} {clicked : List Pos}
    (hv : ∀ p ∈ vcells v, val v p ≤ 8) (hg : Rect g v.row v.col) (hc : ∀ p ∈ clicked, p ∈ vcells v) :
    ∃ g', refreshBoard v g clicked = some g' ∧ Rect g' v.row v.col ∧
      ∀ q ∈ vcells v, bval g' q =
        if Opens v g clicked q then openMark v q
        else if (∃ m ∈ vcells v, Opens v g clicked m ∧ val v m < 0) ∧ bval g q = 11 ∧ val v q ≠ -1 then 14
        else bval g q := by
  have hall : clicked.all (fun p => decide (p.1 < v.row) && decide (p.2 < v.col)) = true := by
    rw [List.all_eq_true]
    intro p hp
    have := mem_grid.mp (hc p hp)
    simp [this.1, this.2]
  have h0 : RInv v g clicked ∅ clicked.reverse g false := by
    refine ⟨hg, by simp, by simp, ?_, ?_, by simp, by simp⟩
    · intro q hq
      have hq : q ∈ clicked := by simpa using hq
      exact ⟨hc q hq, .click hq⟩
    · intro q hq; right; simpa using hq
  have hpot : refreshPot v.row v.col g clicked.reverse ≤ 17 * (v.row * v.col) + clicked.length := by
    unfold refreshPot
    have : (cov v.row v.col g).card ≤ v.row * v.col := by
      rw [← card_grid]; exact Finset.card_le_card (Finset.filter_subset _ _)
    simp only [List.length_reverse]
    omega
  obtain ⟨g1, l1, O, he, hi⟩ := refreshLoop_spec hv _ _ _ _ _ h0 hpot
  have hO : ∀ q, q ∈ O ↔ Opens v g clicked q := by
    intro q
    refine ⟨fun h => (hi.opened q h).2.1, fun h => ?_⟩
    induction h with
    | click h => simpa using hi.starts _ h
    | spread _ h0 hm ha hcv ih => simpa using hi.closed _ ih h0 _ hm ha hcv
  have hlost : l1 = true ↔ ∃ m ∈ vcells v, Opens v g clicked m ∧ val v m < 0 := by
    rw [hi.lost]
    constructor
    · rintro ⟨q, hq, hn⟩; exact ⟨q, (hi.opened q hq).1, (hO q).mp hq, hn⟩
    · rintro ⟨q, _, hq, hn⟩; exact ⟨q, (hO q).mpr hq, hn⟩
  have hg1 : ∀ q ∈ vcells v, bval g1 q = if Opens v g clicked q then openMark v q else bval g q := by
    intro q hq
    split
    · next h => exact (hi.opened q ((hO q).mpr h)).2.2
    · next h => exact hi.rest q (fun h' => h ((hO q).mp h'))
  unfold refreshBoard
  rw [if_pos hall, he]
  simp only [Option.map_some]
  refine ⟨_, rfl, ?_, ?_⟩
  · split
    · exact (crossWrong_spec hi.rect).1
    · exact hi.rect
  · intro q hq
    by_cases hl : l1 = true
    · have hl' := hlost.mp hl
      rw [if_pos hl, (crossWrong_spec hi.rect).2 q hq, hg1 q hq]
      by_cases ho : Opens v g clicked q
      · simp only [if_pos ho]
        rw [if_neg]
        intro h
        exact (openMark_not_cov (hv q hq)).2.1 h.1
      · simp only [if_neg ho, hl', true_and]
    · have hl' := fun h => hl (hlost.mpr h)
      rw [if_neg hl, hg1 q hq]
      by_cases ho : Opens v g clicked q
      · rw [if_pos ho, if_pos ho]
      · rw [if_neg ho, if_neg ho, if_neg (fun h => hl' h.1)]

end Ms
