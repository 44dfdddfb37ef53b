import Verif.Lemmas.BbbvExp
import Verif.Lemmas.BigNumber

/-!
# C09 `cal_bbbv_exp`, C36 `legalize_board`, C37 `is_good_chording`, C45 `C`, `C_query`
-/

namespace Ms.Properties
open Ms Ms.Spec

/-! ## C36 -/

/-- The display values `legalize_board` keeps: `0..8`, `10`, `11`, `12`. -/
def LegalDisplay (v : Int) : Prop := (0 ≤ v ∧ v ≤ 8) ∨ v = 10 ∨ v = 11 ∨ v = 12

instance (v : Int) : Decidable (LegalDisplay v) := by unfold LegalDisplay; infer_instance

/-- **C36** On every rectangular board of arbitrary integers: the result is a board of the same size of
legal display values, in which no shown number exceeds the number of covered cells (10 or 11) around it;
illegal values become covered (10); `0`, `10`, `11`, `12` are kept; a number is only ever lowered, and
never below the number of cells around it that were already covered; a second application changes nothing. -/
theorem C36_legalize (b : Board) (r c : Nat) (hr : 0 < r) (hb : Rect b r c) :
    Rect (legalizeBoard b) r c ∧
    (∀ p ∈ grid r c,
      LegalDisplay (val (legalizeBoard b).view p) ∧
      (1 ≤ val (legalizeBoard b).view p → val (legalizeBoard b).view p ≤ 8 →
        val (legalizeBoard b).view p ≤ nearCount (legalizeBoard b).view p (fun v => v = 10 ∨ v = 11)) ∧
      (¬ LegalDisplay (val b.view p) → val (legalizeBoard b).view p = 10) ∧
      (val b.view p ∈ [0, 10, 11, 12] → val (legalizeBoard b).view p = val b.view p) ∧
      (1 ≤ val b.view p → val b.view p ≤ 8 →
        val (legalizeBoard b).view p ≤ val b.view p ∧
        min (val b.view p) (nearCount b.view p (fun v => v = 10 ∨ v = 11)) ≤ val (legalizeBoard b).view p)) ∧
    legalizeBoard (legalizeBoard b) = legalizeBoard b := by
  have h := legalize_inv hr hb
  have hcov : ∀ (d : Board), Rect d r c → ∀ p, nearCount d.view p (fun v => v = 10 ∨ v = 11) = covered r c d p := by
    intro d hd p
    unfold nearCount covered
    rw [vcells_rect hd hr]
    rfl
  have hill : ∀ v, Illegal v ↔ ¬ LegalDisplay v := by
    intro v; unfold Illegal LegalDisplay; omega
  have key : ∀ p ∈ grid r c,
      LegalDisplay (bval (legalizeBoard b) p) ∧
      (1 ≤ bval (legalizeBoard b) p → bval (legalizeBoard b) p ≤ 8 →
        bval (legalizeBoard b) p ≤ covered r c (legalizeBoard b) p) ∧
      (¬ LegalDisplay (bval b p) → bval (legalizeBoard b) p = 10) ∧
      (bval b p ∈ [0, 10, 11, 12] → bval (legalizeBoard b) p = bval b p) ∧
      (1 ≤ bval b p → bval b p ≤ 8 →
        bval (legalizeBoard b) p ≤ bval b p ∧
        min (bval b p) (covered r c b p) ≤ bval (legalizeBoard b) p) := by
    intro p hp
    by_cases hi : Illegal (bval b p)
    · have e := h.ill p hp hp hi
      refine ⟨by rw [e]; decide, by rw [e]; intro _ h8; omega, fun _ => e, ?_, ?_⟩
      · intro hm
        unfold Illegal at hi
        simp only [List.mem_cons, List.not_mem_nil, or_false] at hm
        omega
      · intro h1 h8; unfold Illegal at hi; omega
    · have hl : LegalDisplay (bval b p) := by
        by_contra hn; exact hi ((hill _).mpr hn)
      by_cases hn : 1 ≤ bval b p ∧ bval b p ≤ 8
      · obtain ⟨k, hk, hk1, hk2⟩ := h.num p hp hp hn.1 hn.2
        refine ⟨by unfold LegalDisplay; omega, ?_, fun h' => absurd hl h', ?_, ?_⟩
        · intro _ _; rw [hk]; omega
        · intro hm
          simp only [List.mem_cons, List.not_mem_nil, or_false] at hm
          omega
        · intro _ _; rw [hk]; omega
      · have e := h.same p hp hp hi hn
        refine ⟨by rw [e]; exact hl, ?_, fun h' => absurd hl h', fun _ => e, fun h1 h8 => absurd ⟨h1, h8⟩ hn⟩
        rw [e]; exact fun h1 h8 => absurd ⟨h1, h8⟩ hn
  refine ⟨h.rect, ?_, ?_⟩
  · intro p hp
    rw [hcov _ h.rect, hcov _ hb]
    exact key p hp
  · apply legalize_id hr h.rect
    intro p hp
    obtain ⟨h1, h2, -⟩ := key p hp
    exact ⟨fun hi => (hill _).mp hi h1, h2⟩

/-- **C36** a board that is already in order is left alone. -/
theorem C36_legalize_fixed (b : Board) (r c : Nat) (hr : 0 < r) (hb : Rect b r c)
    (h : ∀ p ∈ grid r c, LegalDisplay (val b.view p) ∧ (1 ≤ val b.view p → val b.view p ≤ 8 →
      val b.view p ≤ nearCount b.view p (fun v => v = 10 ∨ v = 11))) :
    legalizeBoard b = b := by
  apply legalize_id hr hb
  intro p hp
  obtain ⟨h1, h2⟩ := h p hp
  refine ⟨fun hi => ?_, ?_⟩
  · rw [view_val] at h1; unfold LegalDisplay Illegal at *; omega
  · have : nearCount b.view p (fun v => v = 10 ∨ v = 11) = covered r c b p := by
      unfold nearCount covered
      rw [vcells_rect hb hr]
      rfl
    rw [this] at h2
    exact h2

example : legalizeBoard [[3, 10, 99], [5, 11, 9]] = [[2, 10, 10], [2, 11, 10]] := by decide

/-! ## C37 -/

/-- `q` can be chorded: it shows a number equal to the number of flags around it. -/
def Chordable (b : Board) (q : Pos) : Prop :=
  1 ≤ val b.view q ∧ val b.view q ≤ 8 ∧ val b.view q = nearCount b.view q (fun v => v = 11)

instance (b : Board) (q : Pos) : Decidable (Chordable b q) := by unfold Chordable; infer_instance

/-- What chording `q` would open: the covered cells around it; `-1` if `q` cannot be chorded. -/
def chordGain (b : Board) (q : Pos) : Int :=
  if Chordable b q then nearCount b.view q (fun v => v = 10) else -1

/-- The orthogonal neighbours of `p` on the board. -/
def SideBySide (p q : Pos) : Prop :=
  (p.1 = q.1 ∧ (p.2 = q.2 + 1 ∨ q.2 = p.2 + 1)) ∨ (p.2 = q.2 ∧ (p.1 = q.1 + 1 ∨ q.1 = p.1 + 1))

theorem surround_eq {b : Board} {r c : Nat} (hr : 0 < r) (hb : Rect b r c) {p : Pos} (hp : p ∈ grid r c) :
    surroundCellNum b p = some (chordGain b p) := by
  unfold surroundCellNum
  rw [get?_rect hb hp, Option.map_some]
  congr 1
  rw [foldl_count2, hb.row_eq, hb.col_eq hr]
  have e : ∀ k : Int, ((block r c p.1 p.2).filter fun q => decide (bval b q = k)).length =
      nearCount b.view p (fun v => v = k) := by
    intro k
    rw [filter_block_card]
    unfold nearCount
    rw [vcells_rect hb hr]
    rfl
  simp only [e, Int.zero_add]
  unfold chordGain
  have ev : val b.view p = bval b p := rfl
  by_cases h : bval b p > 8 ∨ bval b p < 1
  · rw [if_pos h, if_neg (fun hc : Chordable b p => by have h1 := hc.1; have h2 := hc.2.1; omega)]
  · rw [if_neg h]
    by_cases h2 : bval b p = (nearCount b.view p (fun v => v = 11) : Int)
    · have hc : Chordable b p := ⟨by omega, by omega, h2⟩
      rw [if_pos h2, if_pos hc]
    · rw [if_neg h2, if_neg (fun h3 : Chordable b p => h2 h3.2.2)]

theorem surround_out {b : Board} {r c : Nat} (hb : Rect b r c) {p : Pos} (hp : p ∉ grid r c) :
    surroundCellNum b p = none := by
  unfold surroundCellNum
  rw [get?_out hb hp]
  rfl

theorem probe_eq {b : Board} {r c : Nat} (hr : 0 < r) (hb : Rect b r c) (mid : Int) (cond : Bool) (q : Pos)
    (hq : cond = true → q ∈ grid r c) :
    probe b mid cond q = some (!decide (cond = true ∧ mid < chordGain b q)) := by
  unfold probe
  cases cond with
  | false => simp
  | true => simp [surround_eq hr hb (hq rfl)]

/-- **C37** (away from the right edge) `is_good_chording` does not panic and answers exactly this: chording
`p` is possible, opens at least one cell, and no orthogonal neighbour can be chorded to open more. -/
theorem C37_good_chording_partial (b : Board) (r c : Nat) (hb : Rect b r c) (p : Pos)
    (hp : p ∈ grid r c) (hedge : p.2 + 1 < c) :
    ∃ ans, isGoodChording b p = some ans ∧
      (ans = true ↔ Chordable b p ∧ 0 < nearCount b.view p (fun v => v = 10) ∧
        ∀ q ∈ grid r c, SideBySide p q → Chordable b q →
          nearCount b.view q (fun v => v = 10) ≤ nearCount b.view p (fun v => v = 10)) := by
  have hpg := mem_grid.mp hp
  have hr : 0 < r := by omega
  have hcol := hb.col_eq hr
  unfold isGoodChording
  rw [surround_eq hr hb hp, hb.row_eq, hcol]
  simp only [Option.bind_eq_bind, Option.bind_some, Option.pure_def]
  rw [probe_eq hr hb _ _ (p.1 - 1, p.2) (by
    intro h; rw [mem_grid]; simp only; omega)]
  rw [probe_eq hr hb _ _ (p.1, p.2 - 1) (by
    intro h; rw [mem_grid]; simp only; omega)]
  rw [probe_eq hr hb _ _ (p.1 + 1, p.2) (by
    intro h; rw [mem_grid]; simp only [decide_eq_true_eq] at h ⊢; omega)]
  rw [probe_eq hr hb _ _ (p.1, p.2 + 1) (by
    intro h; rw [mem_grid]; simp only; omega)]
  simp only [Option.bind_some, decide_eq_true_eq, Bool.not_not]
  have hall : (¬ (p.1 > 0 ∧ chordGain b p < chordGain b (p.1 - 1, p.2)) ∧
      ¬ (p.2 > 0 ∧ chordGain b p < chordGain b (p.1, p.2 - 1)) ∧
      ¬ (p.1 + 1 < r ∧ chordGain b p < chordGain b (p.1 + 1, p.2)) ∧
      ¬ (p.2 < c + 1 ∧ chordGain b p < chordGain b (p.1, p.2 + 1)) ∧ chordGain b p > 0) ↔
      (Chordable b p ∧ 0 < nearCount b.view p (fun v => v = 10) ∧
        ∀ q ∈ grid r c, SideBySide p q → Chordable b q →
          nearCount b.view q (fun v => v = 10) ≤ nearCount b.view p (fun v => v = 10)) := by
    constructor
    · rintro ⟨h1, h2, h3, h4, h5⟩
      have hc : Chordable b p := by
        by_contra hn
        unfold chordGain at h5
        rw [if_neg hn] at h5
        omega
      have e : chordGain b p = nearCount b.view p (fun v => v = 10) := by
        unfold chordGain; rw [if_pos hc]
      refine ⟨hc, by omega, ?_⟩
      intro q hq hs hcq
      have eq : chordGain b q = nearCount b.view q (fun v => v = 10) := by
        unfold chordGain; rw [if_pos hcq]
      have hle : chordGain b q ≤ chordGain b p := by
        obtain ⟨qx, qy⟩ := q
        rw [mem_grid] at hq
        simp only [SideBySide] at hs hq
        rcases hs with ⟨e1, e2 | e2⟩ | ⟨e1, e2 | e2⟩
        · have : (p.1, p.2 - 1) = (qx, qy) := by rw [e1, e2]; simp
          rw [this] at h2; omega
        · have : (p.1, p.2 + 1) = (qx, qy) := by rw [e1, e2]
          rw [this] at h4; omega
        · have : (p.1 - 1, p.2) = (qx, qy) := by rw [e1, e2]; simp
          rw [this] at h1; omega
        · have : (p.1 + 1, p.2) = (qx, qy) := by rw [e1, e2]
          rw [this] at h3; omega
      omega
    · rintro ⟨hc, hpos, hq⟩
      have e : chordGain b p = nearCount b.view p (fun v => v = 10) := by
        unfold chordGain; rw [if_pos hc]
      have hle : ∀ q ∈ grid r c, SideBySide p q → chordGain b q ≤ chordGain b p := by
        intro q hqg hs
        by_cases hcq : Chordable b q
        · have := hq q hqg hs hcq
          have eq : chordGain b q = nearCount b.view q (fun v => v = 10) := by
            unfold chordGain; rw [if_pos hcq]
          omega
        · have eq : chordGain b q = -1 := by unfold chordGain; rw [if_neg hcq]
          omega
      refine ⟨?_, ?_, ?_, ?_, by omega⟩
      · rintro ⟨h0, h⟩
        have := hle (p.1 - 1, p.2) (by rw [mem_grid]; simp only; omega)
          (.inr ⟨rfl, .inl (by simp only; omega)⟩)
        omega
      · rintro ⟨h0, h⟩
        have := hle (p.1, p.2 - 1) (by rw [mem_grid]; simp only; omega)
          (.inl ⟨rfl, .inl (by simp only; omega)⟩)
        omega
      · rintro ⟨h0, h⟩
        have := hle (p.1 + 1, p.2) (by rw [mem_grid]; simp only; omega)
          (.inr ⟨rfl, .inr rfl⟩)
        omega
      · rintro ⟨h0, h⟩
        have := hle (p.1, p.2 + 1) (by rw [mem_grid]; simp only; omega)
          (.inl ⟨rfl, .inr rfl⟩)
        omega
  rw [← hall]
  by_cases g1 : p.1 > 0 ∧ chordGain b p < chordGain b (p.1 - 1, p.2)
  · exact ⟨false, by rw [if_pos g1], by simp [g1]⟩
  by_cases g2 : p.2 > 0 ∧ chordGain b p < chordGain b (p.1, p.2 - 1)
  · exact ⟨false, by rw [if_neg g1, if_pos g2], by simp [g2]⟩
  by_cases g3 : p.1 + 1 < r ∧ chordGain b p < chordGain b (p.1 + 1, p.2)
  · exact ⟨false, by rw [if_neg g1, if_neg g2, if_pos g3], by simp [g3]⟩
  by_cases g4 : p.2 < c + 1 ∧ chordGain b p < chordGain b (p.1, p.2 + 1)
  · exact ⟨false, by rw [if_neg g1, if_neg g2, if_neg g3, if_pos g4], by simp [g4]⟩
  refine ⟨decide (chordGain b p > 0), ?_, ?_⟩
  · rw [if_neg g1, if_neg g2, if_neg g3, if_neg g4]
  · rw [decide_eq_true_eq]
    exact ⟨fun h => ⟨g1, g2, g3, g4, h⟩, fun h => h.2.2.2.2⟩

/-- **C37** is false at the right edge: whenever the cell is at the last column and no other orthogonal
neighbour beats it, the call panics (index out of bounds), for every board. -/
theorem C37_good_chording_refuted (b : Board) (r c : Nat) (hb : Rect b r c) (p : Pos)
    (hp : p ∈ grid r c) (hedge : p.2 + 1 = c)
    (hbest : ∀ q ∈ grid r c, SideBySide p q → chordGain b q ≤ chordGain b p) :
    isGoodChording b p = none := by
  have hpg := mem_grid.mp hp
  have hr : 0 < r := by omega
  have hcol := hb.col_eq hr
  unfold isGoodChording
  rw [surround_eq hr hb hp, hb.row_eq, hcol]
  simp only [Option.bind_eq_bind, Option.bind_some, Option.pure_def]
  have g1 : ¬ (decide (p.1 > 0) = true ∧ chordGain b p < chordGain b (p.1 - 1, p.2)) := by
    rintro ⟨h0, h⟩
    rw [decide_eq_true_eq] at h0
    have := hbest (p.1 - 1, p.2) (by rw [mem_grid]; simp only; omega)
      (.inr ⟨rfl, .inl (by simp only; omega)⟩)
    omega
  have g2 : ¬ (decide (p.2 > 0) = true ∧ chordGain b p < chordGain b (p.1, p.2 - 1)) := by
    rintro ⟨h0, h⟩
    rw [decide_eq_true_eq] at h0
    have := hbest (p.1, p.2 - 1) (by rw [mem_grid]; simp only; omega)
      (.inl ⟨rfl, .inl (by simp only; omega)⟩)
    omega
  have g3 : ¬ (decide (p.1 + 1 < r) = true ∧ chordGain b p < chordGain b (p.1 + 1, p.2)) := by
    rintro ⟨h0, h⟩
    rw [decide_eq_true_eq] at h0
    have := hbest (p.1 + 1, p.2) (by rw [mem_grid]; simp only; omega)
      (.inr ⟨rfl, .inr rfl⟩)
    omega
  rw [probe_eq hr hb _ _ (p.1 - 1, p.2) (by
    intro h; rw [mem_grid]; simp only; omega), decide_eq_false g1]
  rw [probe_eq hr hb _ _ (p.1, p.2 - 1) (by
    intro h; rw [mem_grid]; simp only; omega), decide_eq_false g2]
  rw [probe_eq hr hb _ _ (p.1 + 1, p.2) (by
    intro h; rw [mem_grid]; simp only [decide_eq_true_eq] at h ⊢; omega), decide_eq_false g3]
  unfold probe
  rw [decide_eq_true (by omega : p.2 < c + 1), if_pos rfl, surround_out hb (by
    rw [mem_grid]; simp only; omega)]
  rfl

/-- **C37** It panics in no other case: exactly in the last column when no orthogonal neighbour beats the cell. -/
theorem C37_panics_iff (b : Board) (r c : Nat) (hb : Rect b r c) (p : Pos) (hp : p ∈ grid r c) :
    isGoodChording b p = none ↔
      p.2 + 1 = c ∧ ∀ q ∈ grid r c, SideBySide p q → chordGain b q ≤ chordGain b p := by
  refine ⟨fun h => ?_, fun h => C37_good_chording_refuted b r c hb p hp h.1 h.2⟩
  have hpg := mem_grid.mp hp
  have hr : 0 < r := by omega
  have hcol := hb.col_eq hr
  have hedge : p.2 + 1 = c := by
    by_contra hne
    obtain ⟨ans, ha, -⟩ := C37_good_chording_partial b r c hb p hp (by omega)
    rw [h] at ha
    cases ha
  refine ⟨hedge, ?_⟩
  unfold isGoodChording at h
  rw [surround_eq hr hb hp, hb.row_eq, hcol] at h
  simp only [Option.bind_eq_bind, Option.bind_some, Option.pure_def] at h
  rw [probe_eq hr hb _ _ (p.1 - 1, p.2) (by
    intro h; rw [mem_grid]; simp only; omega)] at h
  rw [probe_eq hr hb _ _ (p.1, p.2 - 1) (by
    intro h; rw [mem_grid]; simp only; omega)] at h
  rw [probe_eq hr hb _ _ (p.1 + 1, p.2) (by
    intro h; rw [mem_grid]; simp only [decide_eq_true_eq] at h ⊢; omega)] at h
  simp only [Option.bind_some, Bool.not_not, decide_eq_true_eq] at h
  split at h
  · cases h
  rename_i g1
  split at h
  · cases h
  rename_i g2
  split at h
  · cases h
  rename_i g3
  intro q hq hs
  have hqg := mem_grid.mp hq
  obtain ⟨q1, q2⟩ := q
  simp only at hqg
  rcases hs with ⟨e, h2 | h2⟩ | ⟨e, h2 | h2⟩ <;> simp only at e h2
  · have : (q1, q2) = (p.1, p.2 - 1) := by ext <;> simp only <;> omega
    rw [this]; by_contra hlt; exact g2 ⟨by omega, by omega⟩
  · omega
  · have : (q1, q2) = (p.1 - 1, p.2) := by ext <;> simp only <;> omega
    rw [this]; by_contra hlt; exact g1 ⟨by omega, by omega⟩
  · have : (q1, q2) = (p.1 + 1, p.2) := by ext <;> simp only <;> omega
    rw [this]; by_contra hlt; exact g3 ⟨by omega, by omega⟩

/-- a board with a good chord at `(1,1)` (away from the edge) ... -/
example : isGoodChording [[10, 11, 1, 0], [10, 1, 1, 0], [1, 1, 0, 0]] (1, 1) = some true := by decide
/-- ... and the panic at the right edge on a board met in real play -/
example : isGoodChording [[1, 10], [11, 1]] (1, 1) = none := by decide

/-! ## C09 -/

/-- A zero cell none of whose row-major-earlier neighbours is a zero. -/
def IsOpeningStart (v : View) (p : Pos) : Prop :=
  val v p = 0 ∧ ∀ q ∈ vcells v, Near p q → (q.1 < p.1 ∨ (q.1 = p.1 ∧ q.2 < p.2)) → val v q ≠ 0

theorem mem_headSet {b : Board} (hb : Rect b 16 30) {p : Pos} :
    p ∈ headSet b ↔ p ∈ vcells b.view ∧ IsOpeningStart b.view p := by
  unfold headSet IsOpeningStart
  rw [Finset.mem_filter, vcells_rect hb (by omega : 0 < 16)]
  constructor
  · rintro ⟨h1, h2⟩
    have := (isHead_iff h1).mp h2
    exact ⟨h1, this.1, this.2⟩
  · rintro ⟨h1, h2⟩
    exact ⟨h1, (isHead_iff h1).mpr h2⟩

/-- **C09** What `cal_bbbv_exp` computes exactly, on every 16×30 board with values below 10^6: never
less than the 3BV, without any index panic (`op_id ≤ 120`) or underflow; it agrees with `cal_bbbv` iff no two
opening starts belong to the same opening. -/
theorem C09_bbbv_exp_partial (b : Board) (hb : Rect b 16 30) (hv : ∀ p ∈ vcells b.view, val b.view p ≤ 999999) :
    (calBbbv b.view : Int) ≤ calBbbvExp b ∧ (expRun b).opId < 200 ∧ 0 ≤ (expRun b).bv ∧
    (calBbbvExp b = calBbbv b.view ↔
      ∀ p ∈ vcells b.view, ∀ q ∈ vcells b.view, IsOpeningStart b.view p → IsOpeningStart b.view q →
        Linked (zeros b.view) p q → p = q) := by
  rw [vcells_rect hb (by omega : 0 < 16)] at hv
  obtain ⟨h1, h2, h3⟩ := calBbbvExp_eq hb hv
  obtain ⟨h4, h5⟩ := components_le_heads hb
  refine ⟨?_, by omega, h3, ?_⟩
  · rw [h1, calBbbv_eq]
    push_cast
    omega
  · have e : (calBbbvExp b = calBbbv b.view) ↔ components (zeros b.view) = (headSet b).card := by
      rw [h1, calBbbv_eq]
      push_cast
      omega
    rw [e, h5]
    constructor
    · intro h p hp q hq hsp hsq
      exact h p ((mem_headSet hb).mpr ⟨hp, hsp⟩) q ((mem_headSet hb).mpr ⟨hq, hsq⟩)
    · intro h p hp q hq
      rw [mem_headSet hb] at hp hq
      exact h p hp.1 q hq.1 hp.2 hq.2

/-- one mine, at `(0,2)` of an expert-size board -/
def oneMine : Board := Board.build 16 30 fun i j =>
  if i = 0 ∧ j = 2 then -1 else if i ≤ 1 ∧ 1 ≤ j ∧ j ≤ 3 then 1 else 0

theorem oneMine_rect : Rect oneMine 16 30 := rect_build _ _ _

theorem oneMine_val {p : Pos} (hp : p ∈ grid 16 30) : val oneMine.view p =
    if p.1 = 0 ∧ p.2 = 2 then -1 else if p.1 ≤ 1 ∧ 1 ≤ p.2 ∧ p.2 ≤ 3 then 1 else 0 := by
  have := mem_grid.mp hp
  rw [view_val]
  unfold bval oneMine
  rw [get_build _ this.1 this.2]

theorem oneMine_mines : mines oneMine.view = {(0, 2)} := by
  ext p
  unfold mines
  rw [Finset.mem_filter, vcells_rect oneMine_rect (by omega), Finset.mem_singleton]
  constructor
  · rintro ⟨h1, h2⟩
    rw [oneMine_val h1] at h2
    split at h2
    · rename_i h; exact Prod.ext h.1 h.2
    · split at h2 <;> omega
  · rintro rfl
    refine ⟨by rw [mem_grid]; omega, ?_⟩
    rw [oneMine_val (by rw [mem_grid]; omega)]
    rfl

theorem oneMine_numbered : Numbered oneMine.view := by
  intro p hp hne
  rw [vcells_rect oneMine_rect (by omega)] at hp
  rw [oneMine_val hp] at hne ⊢
  rw [oneMine_mines]
  unfold adjCount
  have hn : p ≠ (0, 2) := by rintro rfl; simp at hne
  rw [Finset.filter_singleton]
  by_cases h : Adj p (0, 2)
  · rw [if_pos h]
    unfold Adj Near at h
    simp only at h
    have h0 : ¬ (p.1 = 0 ∧ p.2 = 2) := fun h' => hn (Prod.ext h'.1 h'.2)
    rw [if_neg h0, if_pos (by omega)]
    rfl
  · rw [if_neg h]
    have h0 : ¬ (p.1 = 0 ∧ p.2 = 2) := fun h' => hn (Prod.ext h'.1 h'.2)
    rw [if_neg h0, if_neg]
    · rfl
    · intro h'
      exact h ⟨by unfold Near; simp only; omega, hn⟩

/-- **C09** is false: on the expert board with a single mine at row 0, column 2 and correct numbers,
`cal_bbbv_exp` is larger than `cal_bbbv`. -/
theorem C09_bbbv_exp_refuted :
    Rect oneMine 16 30 ∧ Numbered oneMine.view ∧ (calBbbv oneMine.view : Int) < calBbbvExp oneMine := by
  refine ⟨oneMine_rect, oneMine_numbered, ?_⟩
  have hcells := vcells_rect oneMine_rect (by omega : 0 < 16)
  have hv : ∀ p ∈ vcells oneMine.view, val oneMine.view p ≤ 999999 := by
    intro p hp
    rw [hcells] at hp
    rw [oneMine_val hp]
    split
    · omega
    · split <;> omega
  obtain ⟨h1, -, -, h2⟩ := C09_bbbv_exp_partial oneMine oneMine_rect hv
  have hz : ∀ p : Pos, p.1 < 16 → p.2 < 30 → ¬ (p.1 ≤ 1 ∧ 1 ≤ p.2 ∧ p.2 ≤ 3) → p ∈ zeros oneMine.view := by
    intro p hp1 hp2 hp3
    unfold zeros
    rw [Finset.mem_filter, hcells, mem_grid]
    refine ⟨⟨hp1, hp2⟩, ?_⟩
    rw [oneMine_val (mem_grid.mpr ⟨hp1, hp2⟩), if_neg (by omega), if_neg hp3]
  have step : ∀ {a b : Pos}, (a.1 < 16 ∧ a.2 < 30 ∧ ¬ (a.1 ≤ 1 ∧ 1 ≤ a.2 ∧ a.2 ≤ 3)) →
      (b.1 < 16 ∧ b.2 < 30 ∧ ¬ (b.1 ≤ 1 ∧ 1 ≤ b.2 ∧ b.2 ≤ 3)) → Near a b →
      Linked (zeros oneMine.view) a b := fun ha hb hn =>
    Relation.ReflTransGen.single ⟨hz _ ha.1 ha.2.1 ha.2.2, hz _ hb.1 hb.2.1 hb.2.2, hn⟩
  have hlink : Linked (zeros oneMine.view) (0, 0) (0, 4) :=
    ((((((step (a := (0, 0)) (b := (1, 0)) (by decide) (by decide) (by decide)).trans
      (step (b := (2, 1)) (by decide) (by decide) (by decide))).trans
      (step (b := (2, 2)) (by decide) (by decide) (by decide))).trans
      (step (b := (2, 3)) (by decide) (by decide) (by decide))).trans
      (step (b := (1, 4)) (by decide) (by decide) (by decide))).trans
      (step (b := (0, 4)) (by decide) (by decide) (by decide)))
  have hs : ∀ p : Pos, p = (0, 0) ∨ p = (0, 4) → p ∈ vcells oneMine.view ∧ IsOpeningStart oneMine.view p := by
    intro p hp
    rw [hcells]
    have hpg : p ∈ grid 16 30 := by rw [mem_grid]; rcases hp with rfl | rfl <;> simp
    refine ⟨hpg, ?_, ?_⟩
    · rw [oneMine_val hpg]
      rcases hp with rfl | rfl <;> simp
    · intro q hq hn hb
      rw [hcells] at hq
      rw [oneMine_val hq]
      unfold Near at hn
      rcases hp with rfl | rfl
      · simp only at hb hn; omega
      · simp only at hb hn
        rw [if_neg (by omega), if_pos (by omega)]; decide
  by_contra hcon
  have heq : calBbbvExp oneMine = calBbbv oneMine.view := by omega
  have := h2.mp heq (0, 0) (hs _ (.inl rfl)).1 (0, 4) (hs _ (.inr rfl)).1 (hs _ (.inl rfl)).2
    (hs _ (.inr rfl)).2 hlink
  simp at this

/-! ## C45 -/

/-- **C45** `C(n,k)` for all `k ≤ n`: terminates, no underflow, denotes the binomial coefficient, with a
normalised mantissa.  (Mantissa arithmetic is exact here; `f64` rounding is not modelled.) -/
theorem C45_C (n k : Nat) (h : k ≤ n) :
    ∃ c, bigC n k = some c ∧ c.a * 10 ^ c.b = (n.choose k : ℚ) ∧ 1 ≤ c.a ∧ c.a < 10 := bigC_spec n k h

/-- **C45** for `k > n` the call panics (`n - k` underflows). -/
theorem C45_C_panics (n k : Nat) (h : n < k) : bigC n k = none := by
  unfold bigC
  rw [if_pos (by omega), if_pos h]

/-- **C45** `C_query` is the binomial coefficient on its whole table (0 for `k > n`), and panics outside. -/
theorem C45_C_query (n k : Nat) :
    cQuery n k = if n ≤ 8 ∧ k ≤ 8 then some (n.choose k) else none := by
  by_cases h : n ≤ 8 ∧ k ≤ 8
  · rw [if_pos h]
    have : ∀ n ∈ List.range 9, ∀ k ∈ List.range 9, cQuery n k = some (n.choose k) := by decide
    exact this n (List.mem_range.mpr (by omega)) k (List.mem_range.mpr (by omega))
  · rw [if_neg h]
    unfold cQuery
    by_cases hn : n < 9
    · have hk : 9 ≤ k := by omega
      have hrow : ∀ r ∈ ([[1, 0, 0, 0, 0, 0, 0, 0, 0], [1, 1, 0, 0, 0, 0, 0, 0, 0],
          [1, 2, 1, 0, 0, 0, 0, 0, 0], [1, 3, 3, 1, 0, 0, 0, 0, 0], [1, 4, 6, 4, 1, 0, 0, 0, 0],
          [1, 5, 10, 10, 5, 1, 0, 0, 0], [1, 6, 15, 20, 15, 6, 1, 0, 0],
          [1, 7, 21, 35, 35, 21, 7, 1, 0], [1, 8, 28, 56, 70, 56, 28, 8, 1]] : List (List Nat)),
          r.length = 9 := by decide
      rw [List.getElem?_eq_getElem (by simpa using hn), Option.bind_some]
      rw [List.getElem?_eq_none_iff]
      rw [hrow _ (List.getElem_mem _)]
      exact hk
    · rw [List.getElem?_eq_none (by simpa using hn)]
      rfl

/-- The number a `BigNumber` denotes. -/
def denotes (n : BigNumber) : ℚ := n.a * 10 ^ n.b

/-- **C45** the arithmetic of `BigNumber` (used for all probability sums) is exact, terminates on every
input, and leaves a mantissa below 10. -/
theorem C45_bignumber_arith (n k : BigNumber) (j : Nat) :
    (∃ m, n.add k = some m ∧ denotes m = denotes n + denotes k ∧ m.a < 10) ∧
    (∃ m, n.mul k = some m ∧ denotes m = denotes n * denotes k ∧ m.a < 10) ∧
    (∃ m, n.mulUsize j = some m ∧ denotes m = denotes n * j ∧ m.a < 10) ∧
    (k.a ≠ 0 → n.divBig k = some (denotes n / denotes k)) ∧
    (j ≠ 0 → 1 ≤ n.a → ∃ m, n.divUsize j = some m ∧ denotes m = denotes n / j ∧ 1 ≤ m.a) :=
  ⟨BigNumber.add_spec n k, BigNumber.mul_spec n k, BigNumber.mulUsize_spec n j,
   BigNumber.divBig_spec n k, fun h1 h2 => BigNumber.divUsize_spec n j h1 h2⟩

/-- **C45** (limit) `div_usize` does not terminate on a zero written with exponent other than 1, e.g. the
zero `BigNumber { a: 0.0, b: 0 }` the library itself starts its sums from. -/
theorem C45_div_usize_zero_diverges (fuel : Nat) (b : Int) : BigNumber.grow fuel ⟨0, b⟩ = none := by
  induction fuel generalizing b with
  | zero => rfl
  | succ fuel ih =>
    unfold BigNumber.grow
    rw [if_pos (by norm_num)]
    simpa using ih (b - 1)

example : (5 : Nat) ≤ 40 := by decide
example : cQuery 8 4 = some 70 := by decide

end Ms.Properties
