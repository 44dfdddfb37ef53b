import Verif.Lemmas.Metrics
import Verif.Model.Misc

namespace Ms
open Spec

/-! ## generic facts -/

theorem view_val (b : Board) (p : Pos) : val b.view p = bval b p := rfl

theorem vcells_rect {b : Board} {r c : Nat} (hb : Rect b r c) (hr : 0 < r) :
    vcells b.view = grid r c := by
  unfold vcells Board.view
  simp only [hb.row_eq, hb.col_eq hr]

theorem foldl_count_int {α} (P : α → Prop) [DecidablePred P] (l : List α) (k : Int) :
    l.foldl (fun (n : Int) p => if P p then n + 1 else n) k =
      k + ((l.filter fun p => decide (P p)).length : Int) := by
  induction l generalizing k with
  | nil => simp
  | cons a l ih =>
    simp only [List.foldl_cons, List.filter_cons]
    rw [ih]
    by_cases h : P a
    · simp [h]; omega
    · simp [h]

theorem filter_block_card (r c i j : Nat) (P : Pos → Prop) [DecidablePred P] :
    ((block r c i j).filter (fun p => decide (P p))).length =
      ((grid r c).filter fun q => Near (i, j) q ∧ P q).card := by
  rw [← List.toFinset_card_of_nodup ((nodup_block r c i j).filter _)]
  congr 1
  ext p
  simp only [List.mem_toFinset, List.mem_filter, mem_block_near, Finset.mem_filter, decide_eq_true_eq]
  tauto

theorem set_same {b : Board} {r c : Nat} (hb : Rect b r c) {p : Pos} (hp : p ∈ grid r c) {v : Int}
    (h : bval b p = v) : b.set p.1 p.2 v = b := by
  apply Board.ext_get (rect_set hb _ _ _) hb
  intro i j hi hj
  have := bval_set hb hp (i, j) v
  unfold bval at this h
  simp only at this
  rw [this]
  split
  · rename_i e; rw [← h, ← e]
  · rfl

/-! ## `legalize_board` -/

/-- number of covered cells around -/
def covered (r c : Nat) (b : Board) (p : Pos) : Nat :=
  ((grid r c).filter fun q => Near p q ∧ (bval b q = 10 ∨ bval b q = 11)).card

def Illegal (v : Int) : Prop := v ≤ -1 ∨ v ≥ 13 ∨ v = 9

instance (v : Int) : Decidable (Illegal v) := by unfold Illegal; infer_instance

theorem legalizeStep_eq (r c : Nat) (b : Board) (p : Pos) :
    legalizeStep r c b p =
      if Illegal (bval b p) then b.set p.1 p.2 10
      else if 1 ≤ bval b p ∧ bval b p ≤ 8 then b.set p.1 p.2 (min (bval b p) (covered r c b p))
      else b := by
  unfold legalizeStep
  simp only
  have e := foldl_count_int (fun q : Pos => b.get q.1 q.2 = 10 ∨ b.get q.1 q.2 = 11)
    (block r c p.1 p.2) 0
  rw [e, Int.zero_add, filter_block_card r c p.1 p.2]
  rfl

structure LegInv (r c : Nat) (b d : Board) (D : Pos → Prop) : Prop where
  rect : Rect d r c
  rest : ∀ p ∈ grid r c, ¬ D p → bval d p = bval b p
  ill : ∀ p ∈ grid r c, D p → Illegal (bval b p) → bval d p = 10
  same : ∀ p ∈ grid r c, D p → ¬ Illegal (bval b p) → ¬ (1 ≤ bval b p ∧ bval b p ≤ 8) → bval d p = bval b p
  num : ∀ p ∈ grid r c, D p → 1 ≤ bval b p → bval b p ≤ 8 →
    ∃ k : Nat, bval d p = min (bval b p) k ∧ covered r c b p ≤ k ∧ k ≤ covered r c d p

theorem covered_mono {r c : Nat} {b d : Board}
    (h : ∀ q ∈ grid r c, bval b q = 10 ∨ bval b q = 11 → bval d q = 10 ∨ bval d q = 11) (p : Pos) :
    covered r c b p ≤ covered r c d p := by
  unfold covered
  apply Finset.card_le_card
  intro q hq
  rw [Finset.mem_filter] at hq ⊢
  exact ⟨hq.1, hq.2.1, h q hq.1 hq.2.2⟩

theorem LegInv.cov {r c : Nat} {b d : Board} {D : Pos → Prop} (h : LegInv r c b d D) :
    ∀ q ∈ grid r c, bval b q = 10 ∨ bval b q = 11 → bval d q = 10 ∨ bval d q = 11 := by
  intro q hq hv
  by_cases hD : D q
  · rw [h.same q hq hD (by unfold Illegal; omega) (by omega)]; exact hv
  · rw [h.rest q hq hD]; exact hv

theorem legalize_step {r c : Nat} {b d : Board} {D : Pos → Prop} (h : LegInv r c b d D) {p : Pos}
    (hp : p ∈ grid r c) (hD : ¬ D p) :
    LegInv r c b (legalizeStep r c d p) (fun q => D q ∨ q = p) := by
  rw [legalizeStep_eq]
  have hpb := h.rest p hp hD
  -- the new value
  obtain ⟨w, hw, hcov⟩ : ∃ w, (if Illegal (bval d p) then d.set p.1 p.2 10
      else if 1 ≤ bval d p ∧ bval d p ≤ 8 then d.set p.1 p.2 (min (bval d p) (covered r c d p))
      else d) = d.set p.1 p.2 w ∧ ((Illegal (bval b p) → w = 10) ∧
        (¬ Illegal (bval b p) → ¬ (1 ≤ bval b p ∧ bval b p ≤ 8) → w = bval b p) ∧
        (1 ≤ bval b p → bval b p ≤ 8 → w = min (bval b p) (covered r c d p))) := by
    rw [hpb]
    by_cases h1 : Illegal (bval b p)
    · rw [if_pos h1]
      exact ⟨10, rfl, fun _ => rfl, fun h2 => absurd h1 h2, fun h2 h3 => by
        unfold Illegal at h1; omega⟩
    · rw [if_neg h1]
      by_cases h2 : 1 ≤ bval b p ∧ bval b p ≤ 8
      · rw [if_pos h2]
        exact ⟨_, rfl, fun h3 => absurd h3 h1, fun _ h3 => absurd h2 h3, fun _ _ => rfl⟩
      · rw [if_neg h2]
        exact ⟨bval b p, (set_same h.rect hp hpb).symm, fun h3 => absurd h3 h1, fun _ _ => rfl,
          fun h3 h4 => absurd ⟨h3, h4⟩ h2⟩
  rw [hw]
  have hs := fun q => bval_set h.rect hp q w
  have hmono : ∀ q ∈ grid r c, bval d q = 10 ∨ bval d q = 11 →
      bval (d.set p.1 p.2 w) q = 10 ∨ bval (d.set p.1 p.2 w) q = 11 := by
    intro q hq hv
    rw [hs]
    split
    · rename_i e
      subst e
      have : bval b q = 10 ∨ bval b q = 11 := by rw [← hpb]; exact hv
      rw [hcov.2.1 (by unfold Illegal; omega) (by omega)]; exact this
    · exact hv
  refine ⟨rect_set h.rect _ _ _, ?_, ?_, ?_, ?_⟩
  · intro q hq hn
    rw [hs, if_neg (fun e => hn (.inr e)), h.rest q hq (fun e => hn (.inl e))]
  · intro q hq hd hi
    rw [hs]
    split
    · rename_i e; subst e; exact hcov.1 hi
    · rename_i e; exact h.ill q hq (hd.resolve_right e) hi
  · intro q hq hd hi hn
    rw [hs]
    split
    · rename_i e; subst e; exact hcov.2.1 hi hn
    · rename_i e; exact h.same q hq (hd.resolve_right e) hi hn
  · intro q hq hd h1 h8
    rw [hs]
    split
    · rename_i e
      subst e
      exact ⟨covered r c d q, hcov.2.2 h1 h8, covered_mono h.cov q, covered_mono hmono q⟩
    · rename_i e
      obtain ⟨k, hk, hk1, hk2⟩ := h.num q hq (hd.resolve_right e) h1 h8
      exact ⟨k, hk, hk1, hk2.trans (covered_mono hmono q)⟩

theorem legalize_loop {r c : Nat} {b : Board} : ∀ (l : List Pos) (d : Board) (D : Pos → Prop),
    LegInv r c b d D → (∀ p ∈ l, p ∈ grid r c ∧ ¬ D p) → l.Nodup →
    LegInv r c b (l.foldl (legalizeStep r c) d) (fun q => D q ∨ q ∈ l) := by
  intro l
  induction l with
  | nil => intro d D h _ _; simpa using h
  | cons a l ih =>
    intro d D h hl hn
    rw [List.nodup_cons] at hn
    have := ih _ _ (legalize_step h (hl a (by simp)).1 (hl a (by simp)).2) (by
      intro p hp
      refine ⟨(hl p (by simp [hp])).1, ?_⟩
      rintro (h' | rfl)
      · exact (hl p (by simp [hp])).2 h'
      · exact hn.1 hp) hn.2
    have e : (fun q => (D q ∨ q = a) ∨ q ∈ l) = fun q => D q ∨ q ∈ a :: l := by
      funext q; rw [List.mem_cons, or_assoc]
    rw [e] at this
    exact this

theorem legalize_inv {b : Board} {r c : Nat} (hr : 0 < r) (hb : Rect b r c) :
    LegInv r c b (legalizeBoard b) (fun q => q ∈ grid r c) := by
  unfold legalizeBoard
  rw [hb.row_eq, hb.col_eq hr]
  have := legalize_loop (cells r c) b (fun _ => False)
    ⟨hb, fun _ _ _ => rfl, fun _ _ h => h.elim, fun _ _ h => h.elim, fun _ _ h => h.elim⟩
    (fun p hp => ⟨mem_cells_grid.mp hp, not_false⟩) (nodup_cells r c)
  simpa [mem_grid] using this

/-- on a board that is already fine nothing happens -/
theorem legalize_id {b : Board} {r c : Nat} (hr : 0 < r) (hb : Rect b r c)
    (h : ∀ p ∈ grid r c, ¬ Illegal (bval b p) ∧
      (1 ≤ bval b p → bval b p ≤ 8 → bval b p ≤ covered r c b p)) : legalizeBoard b = b := by
  unfold legalizeBoard
  rw [hb.row_eq, hb.col_eq hr]
  have : ∀ l : List Pos, (∀ p ∈ l, p ∈ grid r c) → l.foldl (legalizeStep r c) b = b := by
    intro l
    induction l with
    | nil => intro _; rfl
    | cons a l ih =>
      intro hl
      have ha := hl a (by simp)
      have hs : legalizeStep r c b a = b := by
        rw [legalizeStep_eq, if_neg (h a ha).1]
        split
        · rename_i h2
          have := (h a ha).2 h2.1 h2.2
          exact set_same hb ha (by omega)
        · rfl
      rw [List.foldl_cons, hs]
      exact ih fun p hp => hl p (by simp [hp])
  exact this _ fun p hp => mem_cells_grid.mp hp

/-! ## `is_good_chording` -/

theorem get?_rect {b : Board} {r c : Nat} (hb : Rect b r c) {p : Pos} (hp : p ∈ grid r c) :
    b.get? p.1 p.2 = some (bval b p) := by
  rw [mem_grid] at hp
  have hi' : p.1 < b.length := by rw [hb.len]; exact hp.1
  have hj' : p.2 < b[p.1].length := by rw [hb.rows _ (List.getElem_mem hi')]; exact hp.2
  unfold Board.get? bval Board.get
  simp [List.getD_eq_getElem?_getD, hi', hj']

theorem get?_out {b : Board} {r c : Nat} (hb : Rect b r c) {p : Pos} (hp : p ∉ grid r c) :
    b.get? p.1 p.2 = none := by
  rw [mem_grid] at hp
  unfold Board.get?
  by_cases hi : p.1 < r
  · have hi' : p.1 < b.length := by rw [hb.len]; exact hi
    have hj' : b[p.1].length ≤ p.2 := by rw [hb.rows _ (List.getElem_mem hi')]; omega
    simp [hi', hj']
  · have hi' : b.length ≤ p.1 := by rw [hb.len]; omega
    simp [hi']

theorem foldl_count2 (b : Board) (l : List Pos) (x y : Int) :
    l.foldl (fun (s : Int × Int) q =>
        if b.get q.1 q.2 = 10 then (s.1 + 1, s.2)
        else if b.get q.1 q.2 = 11 then (s.1, s.2 + 1) else s) (x, y) =
      (x + ((l.filter fun q => decide (bval b q = 10)).length : Int),
       y + ((l.filter fun q => decide (bval b q = 11)).length : Int)) := by
  induction l generalizing x y with
  | nil => simp
  | cons a l ih =>
    rw [List.foldl_cons]
    have e : b.get a.1 a.2 = bval b a := rfl
    simp only [e, List.filter_cons]
    by_cases h : bval b a = 10
    · rw [if_pos h, ih]
      simp [h]; omega
    · rw [if_neg h]
      by_cases h' : bval b a = 11
      · rw [if_pos h', ih]
        simp [h']; omega
      · rw [if_neg h', ih]
        simp [h, h']

end Ms
