import Verif.Lemmas.Fork
import Verif.Lemmas.Refresh
import Verif.Lemmas.Matrix
import Verif.Lemmas.EnumExact
import Verif.Properties.Solve
import Verif.Properties.Matrix

namespace Ms
open Spec

/-! ## the knowledge of the player and the game board -/

/-- What `is_solvable` knows about the board `b`: the cells `O` are open, the marked cells are forced mines. -/
structure KInv (r c : Nat) (b : Board) (s : Pos) (O : Finset Pos) (g : Board) : Prop where
  rect : Rect g r c
  openable : Openable r c b s O
  opened : ∀ p ∈ O, bval g p = bval b p
  covered : ∀ p ∈ grid r c, p ∉ O → bval g p = 10 ∨
    (bval g p = 11 ∧ ∀ σ, Explains r c b O σ → σ p = true)

theorem rect_dims {g : Board} {r c : Nat} (h : Rect g r c) (hr : 0 < r) : g.row = r ∧ g.col = c := by
  refine ⟨h.len, ?_⟩
  have hl := h.len
  cases g with
  | nil => simp at hl; omega
  | cons a g => exact h.rows a (by simp)

/-- A correctly numbered board. -/
structure BoardOK (r c : Nat) (b : Board) : Prop where
  rect : Rect b r c
  rpos : 0 < r
  cpos : 0 < c
  numbered : Numbered b.view

variable {r c : Nat} {b : Board} {s : Pos} {O : Finset Pos} {g : Board}

theorem BoardOK.view (h : BoardOK r c b) : b.view.row = r ∧ b.view.col = c := rect_dims h.rect h.rpos

theorem BoardOK.vcells (h : BoardOK r c b) : vcells b.view = grid r c := by
  unfold Spec.vcells; rw [h.view.1, h.view.2]

theorem layout_iff {p : Pos} : layout b p = true ↔ bval b p = -1 := by
  unfold layout bval; simp

theorem layout_false {p : Pos} : layout b p = false ↔ bval b p ≠ -1 := by
  unfold layout bval; simp

/-- a safe cell shows the number of mines around it -/
theorem BoardOK.number (h : BoardOK r c b) {p : Pos} (hp : p ∈ grid r c) (hs : layout b p = false) :
    bval b p = layoutNear r c (layout b) p := by
  have := h.numbered p (by rw [h.vcells]; exact hp) (layout_false.mp hs)
  have e : val b.view p = bval b p := rfl
  rw [← e, this]
  unfold adjCount layoutNear mines
  rw [Finset.filter_filter, h.vcells]
  congr 2
  apply Finset.filter_congr
  intro q _
  have : val b.view q = bval b q := rfl
  rw [this, layout_iff, Adj]
  constructor
  · rintro ⟨h1, h2, _⟩; exact ⟨h2, h1⟩
  · rintro ⟨h1, h2⟩
    refine ⟨h2, h1, fun e => ?_⟩
    subst e
    exact layout_false.mp hs h2

theorem layoutNear_le (r c : Nat) (σ : Pos → Bool) (p : Pos) : layoutNear r c σ p ≤ 9 := by
  unfold layoutNear
  have h1 : ((grid r c).filter fun q => Near p q ∧ σ q = true) ⊆ (block r c p.1 p.2).toFinset := by
    intro q hq
    obtain ⟨h1, h2, -⟩ := Finset.mem_filter.mp hq
    exact List.mem_toFinset.mpr (near_mem_block.mpr ⟨h1, h2⟩)
  exact (Finset.card_le_card h1).trans ((List.toFinset_card_le _).trans (block_length_le _ _ _ _))

theorem BoardOK.range (h : BoardOK r c b) {p : Pos} (hp : p ∈ grid r c) (hs : layout b p = false) :
    0 ≤ bval b p ∧ bval b p ≤ 8 := by
  have h1 := h.numbered p (by rw [h.vcells]; exact hp) (layout_false.mp hs)
  have e : val b.view p = bval b p := rfl
  rw [← e, h1]
  have : adjCount (mines b.view) p ≤ 8 := by
    unfold adjCount
    have hsub : ((mines b.view).filter fun q => Adj p q) ⊆ (block r c p.1 p.2).toFinset.erase p := by
      intro q hq
      obtain ⟨h1, h2⟩ := Finset.mem_filter.mp hq
      unfold mines at h1
      have h3 := (Finset.mem_filter.mp h1).1
      rw [h.vcells] at h3
      exact Finset.mem_erase.mpr ⟨fun e => h2.2 e.symm, List.mem_toFinset.mpr (near_mem_block.mpr ⟨h3, h2.1⟩)⟩
    have hm : p ∈ (block r c p.1 p.2).toFinset :=
      List.mem_toFinset.mpr (near_mem_block.mpr ⟨hp, near_refl p⟩)
    have h4 := Finset.card_le_card hsub
    rw [Finset.card_erase_of_mem hm] at h4
    have h5 := (List.toFinset_card_le (block r c p.1 p.2)).trans (block_length_le _ _ _ _)
    omega
  omega

theorem BoardOK.le8 (h : BoardOK r c b) : ∀ p ∈ Spec.vcells b.view, val b.view p ≤ 8 := by
  intro p hp
  rw [h.vcells] at hp
  have e : val b.view p = bval b p := rfl
  rw [e]
  rcases Bool.eq_false_or_eq_true (layout b p) with hl | hl
  · rw [layout_iff.mp hl]; omega
  · exact (h.range hp hl).2

/-! ## the equations on the game board and the layouts -/

section
variable (hb : BoardOK r c b) (hs : layout b s = false) (hsg : s ∈ grid r c) (k : KInv r c b s O g)
include hb hs hsg k

theorem KInv.isNumber {p : Pos} : IsNumber g p ↔ p ∈ O := by
  have hd := rect_dims k.rect hb.rpos
  unfold IsNumber
  rw [hd.1, hd.2]
  constructor
  · rintro ⟨h1, h2, h3⟩
    by_contra hO
    have e : bval g p = g.get p.1 p.2 := rfl
    rcases k.covered p h1 hO with h | ⟨h, -⟩ <;> omega
  · intro hO
    have hp := openable_grid hsg k.openable hO
    have h1 := hb.range hp (openable_safe hs k.openable p hO)
    rw [← k.opened p hO] at h1
    have e : bval g p = g.get p.1 p.2 := rfl
    exact ⟨hp, by omega, by omega⟩

theorem KInv.isCovered {p : Pos} : IsCovered g p ↔ p ∈ grid r c ∧ bval g p = 10 := by
  have hd := rect_dims k.rect hb.rpos
  unfold IsCovered
  rw [hd.1, hd.2]
  rfl

theorem KInv.not_open {p : Pos} (h : bval g p = 10 ∨ bval g p = 11) : p ∉ O := by
  intro hO
  have h1 := hb.range (openable_grid hsg k.openable hO) (openable_safe hs k.openable p hO)
  rw [← k.opened p hO] at h1
  omega

/-- a layout that explains the open cells solves the equations -/
theorem KInv.consistent {σ : Pos → Bool} (hσ : Explains r c b O σ) : Consistent g σ := by
  intro p hp
  have hO := (k.isNumber hb hs hsg).mp hp
  have hd := rect_dims k.rect hb.rpos
  have h1 := k.opened p hO
  have h2 := hb.number (openable_grid hsg k.openable hO) (openable_safe hs k.openable p hO)
  change bval g p = _
  rw [h1, h2, ← (hσ p hO).2]
  unfold layoutNear minesNear
  rw [hd.1, hd.2]
  congr 2
  apply Finset.filter_congr
  intro q hq
  change _ ↔ Near p q ∧ (bval g q = 11 ∨ (bval g q = 10 ∧ σ q = true))
  by_cases hqO : q ∈ O
  · have hf := (hσ q hqO).1
    have hn : ¬ (bval g q = 10 ∨ bval g q = 11) := fun h => k.not_open hb hs hsg h hqO
    simp only [hf]
    constructor
    · rintro ⟨_, h⟩; simp at h
    · rintro ⟨_, h | ⟨h, _⟩⟩
      · exact absurd (.inr h) hn
      · exact absurd (.inl h) hn
  · rcases k.covered q hq hqO with h | ⟨h, hf⟩
    · simp [h]
    · simp [h, hf σ hσ]

/-- the layout given by a solution of the equations -/
def extend (g : Board) (σ : Pos → Bool) (p : Pos) : Bool :=
  decide (bval g p = 11) || (decide (bval g p = 10) && σ p)

/-- a solution of the equations explains the open cells -/
theorem KInv.explains {σ : Pos → Bool} (hσ : Consistent g σ) : Explains r c b O (extend g σ) := by
  intro p hO
  have hd := rect_dims k.rect hb.rpos
  have hn : ¬ (bval g p = 10 ∨ bval g p = 11) := fun h => k.not_open hb hs hsg h hO
  refine ⟨?_, ?_⟩
  · unfold extend
    simp only [not_or] at hn
    simp [hn.1, hn.2]
  · have h1 := hσ p ((k.isNumber hb hs hsg).mpr hO)
    have h2 := hb.number (openable_grid hsg k.openable hO) (openable_safe hs k.openable p hO)
    rw [← k.opened p hO] at h2
    change bval g p = _ at h1
    rw [h1] at h2
    have h3 : minesNear g σ p = layoutNear r c (layout b) p := by exact_mod_cast h2
    rw [← h3]
    unfold layoutNear minesNear extend
    rw [hd.1, hd.2]
    congr 1
    apply Finset.filter_congr
    intro q _
    simp only [Bool.or_eq_true, Bool.and_eq_true, decide_eq_true_eq]
    rfl

end

/-! ## one round of deduction -/

/-- What a round of deduction found: cells forced to be safe and cells forced to be mines. -/
structure Found (r c : Nat) (b : Board) (O : Finset Pos) (g : Board) (n i : List Pos) (g' : Board) : Prop where
  rect : Rect g' r c
  some : n ≠ [] ∨ i ≠ []
  safe : ∀ p ∈ n, p ∈ grid r c ∧ bval g p = 10 ∧ ∀ σ, Explains r c b O σ → σ p = false
  mine : ∀ p ∈ i, p ∈ grid r c ∧ bval g p = 10 ∧ ∀ σ, Explains r c b O σ → σ p = true
  marked : ∀ p ∈ i, bval g' p = 11
  rest : ∀ p, p ∉ i → p ∉ n → bval g' p = bval g p

/-- a system that says the same as the numbers on `g` -/
structure SysFor (r c : Nat) (g : Board) (S : Sys) : Prop where
  good : GoodSys S
  cells : ∀ q, q ∈ sysCells S ↔ Frontier g q
  solves : ∀ σ, Solves σ S ↔ Consistent g σ
  hit : ∀ B ∈ S, RowsHit B
  rows : ∀ B ∈ S, B.rows ≠ []
  weight : ∀ B ∈ S, RowSum 8 B

theorem SysFor.sat {S : Sys} (h : SysFor r c g S) (hb : BoardOK r c b) (hs : layout b s = false)
    (hsg : s ∈ grid r c) (k : KInv r c b s O g) : Solves (layout b) S :=
  (h.solves _).mpr (k.consistent hb hs hsg (layout_explains (openable_safe hs k.openable)))

theorem SysFor.onBoard {S : Sys} (h : SysFor r c g S) (hb : BoardOK r c b) (hs : layout b s = false)
    (hsg : s ∈ grid r c) (k : KInv r c b s O g) : Properties.OnBoard S r c := by
  intro p hp
  have := ((h.cells p).mp hp).1
  exact mem_grid.mp ((k.isCovered hb hs hsg).mp this).1

theorem refreshMatrixs_for (hb : BoardOK r c b) (hs : layout b s = false) (hsg : s ∈ grid r c)
    (k : KInv r c b s O g) : ∃ S, refreshMatrixs g = some S ∧ SysFor r c g S := by
  obtain ⟨S, h1, h2, h3, h4, -⟩ := Properties.refresh_matrixs_exact g
  obtain ⟨S', h1', h5⟩ := Properties.refresh_matrixs_consistent g
    ⟨layout b, k.consistent hb hs hsg (layout_explains (openable_safe hs k.openable))⟩
  obtain ⟨S'', h1'', h6⟩ := refreshMatrixs_spec g
  rw [h1] at h1' h1''
  obtain rfl := Option.some.inj h1'
  obtain rfl := Option.some.inj h1''
  exact ⟨S, h1, h2, h3, h5, fun B hB => (h4 B hB).2, fun B hB => (h4 B hB).1, h6.weight⟩

/-- one call of a deterministic solver, seen from the board -/
theorem ded_found {S : Sys} (h : SysFor r c g S) (hb : BoardOK r c b) (hs : layout b s = false)
    (hsg : s ∈ grid r c) (k : KInv r c b s O g) {out : SolveOut} {m : Marks} {l : List (Pos × Bool)}
    (ho : out.board = m.board) (hrep : Reports ⟨[], [], g⟩ m l) (hd : DedS S out.sys l)
    (hhit : ∀ B ∈ out.sys, RowsHit B) (hrows : ∀ B ∈ out.sys, B.rows ≠ []) :
    (m.notMine = [] ∧ m.isMine = [] ∧ out.board = g ∧ SysFor r c g out.sys) ∨
    (¬ (m.notMine = [] ∧ m.isMine = []) ∧ Found r c b O g m.notMine m.isMine out.board) := by
  obtain ⟨e1, e2, e3, e4, e5⟩ := Properties.out_of_spec h.good k.rect (h.onBoard hb hs hsg k) ho hrep hd
  by_cases hemp : m.notMine = [] ∧ m.isMine = []
  · left
    refine ⟨hemp.1, hemp.2, ?_, e4, fun q => ?_, fun σ => ?_, hhit, hrows, fun B hB => hd.weight 8 h.weight B hB⟩
    · have hn := hrep.notMine
      have hi := hrep.isMine
      rw [hemp.1] at hn
      rw [hemp.2] at hi
      simp only [List.nil_append] at hn hi
      have hl : l = [] := by
        cases l with
        | nil => rfl
        | cons q l =>
          obtain ⟨p, v⟩ := q
          cases v
          · have := mem_reported.mpr (List.mem_cons_self : (p, false) ∈ (p, false) :: l)
            rw [← hn] at this; simp at this
          · have := mem_reported.mpr (List.mem_cons_self : (p, true) ∈ (p, true) :: l)
            rw [← hi] at this; simp at this
      rw [ho, hrep.board, hl]; rfl
    · rw [← h.cells]
      have := e2.mem_iff (a := q)
      rw [hemp.1, hemp.2] at this
      simpa using this.symm
    · rw [← h.solves, e1, hemp.1, hemp.2]; simp
  · right
    refine ⟨hemp, e5, ?_, fun p hp => ?_, fun p hp => ?_, fun p hp => ?_, fun p hp hp' => ?_⟩
    · by_contra hc
      push Not at hc
      exact hemp hc
    · have hf := (h.cells p).mp (e2.mem_iff.mpr (by simp [hp]))
      have hc := (k.isCovered hb hs hsg).mp hf.1
      refine ⟨hc.1, hc.2, fun σ hσ => ?_⟩
      exact ((e1 σ).mp ((h.solves σ).mpr (k.consistent hb hs hsg hσ))).2.1 p hp
    · have hf := (h.cells p).mp (e2.mem_iff.mpr (by simp [hp]))
      have hc := (k.isCovered hb hs hsg).mp hf.1
      refine ⟨hc.1, hc.2, fun σ hσ => ?_⟩
      exact ((e1 σ).mp ((h.solves σ).mpr (k.consistent hb hs hsg hσ))).2.2 p hp
    · have := e3 p.1 p.2
      rw [if_pos hp] at this
      exact this
    · have := e3 p.1 p.2
      rw [if_neg hp, if_neg hp'] at this
      exact this

theorem block_enumOK {S : Sys} (h : SysFor r c g S) (hsat : ∃ σ, Solves σ S) : ∀ B ∈ S, EnumOK B := by
  intro B hB
  refine ⟨h.good.rect B hB, ?_, h.good.covered B hB, h.hit B hB, h.rows B hB, h.weight B hB, ?_⟩
  · have := h.good.nodup
    unfold sysCells at this
    rw [List.nodup_flatMap] at this
    exact this.1 B hB
  · obtain ⟨σ, hσ⟩ := hsat
    intro q hq
    have h2 := lhs_nonneg σ q.1 B.x (h.good.rect B hB q hq).2
    rw [hσ B hB q hq] at h2
    exact h2

/-- marking a list of cells 11 -/
theorem mark11_bval : ∀ (l : List Pos) (g : Board), Rect g r c → (∀ p ∈ l, p ∈ grid r c) →
    Rect (l.foldl (fun g p => g.set p.1 p.2 11) g) r c ∧
    ∀ q, bval (l.foldl (fun g p => g.set p.1 p.2 11) g) q = if q ∈ l then 11 else bval g q := by
  intro l
  induction l with
  | nil => intro g hg _; exact ⟨hg, by simp⟩
  | cons p l ih =>
    intro g hg hl
    obtain ⟨h1, h2⟩ := ih (g.set p.1 p.2 11) (rect_set hg _ _ _) (fun q hq => hl q (by simp [hq]))
    refine ⟨h1, fun q => ?_⟩
    rw [List.foldl_cons, h2, bval_set hg (hl p (by simp))]
    by_cases hq : q = p
    · simp [hq]
    · simp [hq]

/-- nothing is forced safe: the player is stuck -/
theorem KInv.stuck (hb : BoardOK r c b) (hs : layout b s = false) (hsg : s ∈ grid r c) (k : KInv r c b s O g)
    (hno : ∀ p, Frontier g p → ¬ ∀ σ, Consistent g σ → σ p = false) :
    ∀ p ∈ grid r c, (∀ σ, Explains r c b O σ → σ p = false) → p ∈ O := by
  intro p hp hf
  by_contra hO
  have htrue := layout_explains (r := r) (c := c) (openable_safe hs k.openable)
  rcases k.covered p hp hO with h10 | ⟨_, h11⟩
  · by_cases hfr : Frontier g p
    · refine hno p hfr fun σ hσ => ?_
      have := hf _ (k.explains hb hs hsg hσ)
      unfold extend at this
      simpa [h10] using this
    · -- a cell away from all numbers: put a mine there
      have hex : Explains r c b O (fun q => if q = p then true else layout b q) := by
        intro q hq
        refine ⟨?_, ?_⟩
        · simp only
          rw [if_neg (fun e : q = p => hO (e ▸ hq))]; exact openable_safe hs k.openable q hq
        · unfold layoutNear
          congr 1
          apply Finset.filter_congr
          intro x _
          by_cases hx : x = p
          · subst hx
            have : ¬ Near q x := fun hn => hfr ⟨(k.isCovered hb hs hsg).mpr ⟨hp, h10⟩, q,
              (k.isNumber hb hs hsg).mpr hq, hn⟩
            simp [this]
          · simp [hx]
      have := hf _ hex
      simp at this
  · have h1 := h11 _ htrue
    rw [hf _ htrue] at h1
    simp at h1

theorem solvablePick_spec (hb : BoardOK r c b) (hs : layout b s = false) (hsg : s ∈ grid r c)
    (k : KInv r c b s O g) :
    ∃ res, solvablePick g = some res ∧
      (res = none → (∀ p ∈ grid r c, (∀ σ, Explains r c b O σ → σ p = false) → p ∈ O) ∨
        ENUM_LIMIT < (border r c O).card) ∧
      (∀ n g', res = some (n, g') → ∃ i, Found r c b O g n i g') := by
  obtain ⟨S, s1, s2⟩ := refreshMatrixs_for hb hs hsg k
  obtain ⟨o, m, l, h1, h2, h3, h4, h5, h6, h7, -⟩ := solveDirect_spec (S := S) (g := g) s2.good.rect s2.good.covered
    ⟨_, s2.sat hb hs hsg k⟩
  unfold solvablePick
  simp only [s1, Option.bind_eq_bind, Option.bind_some, h1, h3]
  rcases ded_found s2 hb hs hsg k h2 h4 h5 h6 h7 with ⟨e1, e2, e3, e4⟩ | ⟨e1, e2⟩
  · rw [if_pos ⟨e1, e2⟩]
    obtain ⟨o2, m2, l2, h1', h2', h3', h4', h5', h6', h7', -⟩ := solveMinus_spec (S := o.sys) (g := g)
      e4.good.rect e4.good.covered ⟨_, e4.sat hb hs hsg k⟩
    rw [e3, h1']
    simp only [Option.bind_some, h3']
    rcases ded_found e4 hb hs hsg k h2' h4' h5' h6' h7' with ⟨d1, d2, d3, d4⟩ | ⟨d1, d2⟩
    · rw [if_pos ⟨d1, d2⟩]
      have hsat := d4.sat hb hs hsg k
      by_cases hlim : ∀ B ∈ o2.sys, B.x.length ≤ ENUM_LIMIT
      · obtain ⟨n3, i3, f1, f2, f3⟩ := solveEnumerate_spec (block_enumOK d4 ⟨_, hsat⟩) hlim d4.good.nodup ⟨_, hsat⟩
        rw [f1]
        simp only [Option.bind_some]
        by_cases hemp : n3 = [] ∧ i3 = []
        · rw [if_pos hemp]
          refine ⟨none, rfl, fun _ => .inl (k.stuck hb hs hsg fun p hp hf => ?_), by simp⟩
          have := (f2 p).mpr ⟨(d4.cells p).mpr hp, fun σ hσ => hf σ ((d4.solves σ).mp hσ)⟩
          rw [hemp.1] at this; simp at this
        · rw [if_neg hemp]
          refine ⟨_, rfl, by simp, ?_⟩
          rintro n g' he
          simp only [Option.some.injEq, Prod.mk.injEq] at he
          obtain ⟨rfl, rfl⟩ := he
          have hsafe : ∀ p ∈ n3, p ∈ grid r c ∧ bval g p = 10 ∧ ∀ σ, Explains r c b O σ → σ p = false := by
            intro p hp
            obtain ⟨a1, a2⟩ := (f2 p).mp hp
            have hc := (k.isCovered hb hs hsg).mp ((d4.cells p).mp a1).1
            exact ⟨hc.1, hc.2, fun σ hσ => a2 σ ((d4.solves σ).mpr (k.consistent hb hs hsg hσ))⟩
          have hmine : ∀ p ∈ i3, p ∈ grid r c ∧ bval g p = 10 ∧ ∀ σ, Explains r c b O σ → σ p = true := by
            intro p hp
            obtain ⟨a1, -, a2⟩ := (f3 p).mp hp
            have hc := (k.isCovered hb hs hsg).mp ((d4.cells p).mp a1).1
            exact ⟨hc.1, hc.2, fun σ hσ => a2 σ ((d4.solves σ).mpr (k.consistent hb hs hsg hσ))⟩
          obtain ⟨q1, q2⟩ := mark11_bval i3 g k.rect (fun p hp => (hmine p hp).1)
          rw [d3]
          refine ⟨i3, q1, ?_, hsafe, hmine, fun p hp => ?_, fun p hp _ => ?_⟩
          · by_contra hc
            push Not at hc
            exact hemp hc
          · rw [q2, if_pos hp]
          · rw [q2, if_neg hp]
      · have hany : (o2.sys.any fun B => B.x.length > ENUM_LIMIT) = true := by
          push Not at hlim
          obtain ⟨B, hB, hl⟩ := hlim
          rw [List.any_eq_true]
          exact ⟨B, hB, by simpa using hl⟩
        have hnone : solveEnumerate o2.sys = some ([], []) := by
          unfold solveEnumerate; rw [if_pos hany]
        rw [hnone]
        simp only [Option.bind_some, and_self, if_true]
        refine ⟨none, rfl, fun _ => .inr ?_, by simp⟩
        push Not at hlim
        obtain ⟨B, hB, hl⟩ := hlim
        have hBn : B.x.Nodup := (block_enumOK d4 ⟨_, hsat⟩ B hB).nodup
        refine lt_of_lt_of_le hl ?_
        rw [← List.toFinset_card_of_nodup hBn]
        apply Finset.card_le_card
        intro q hq
        have hfr := (d4.cells q).mp (mem_sysCells.mpr ⟨B, hB, List.mem_toFinset.mp hq⟩)
        have hc := (k.isCovered hb hs hsg).mp hfr.1
        obtain ⟨p, hp, hn⟩ := hfr.2
        exact Finset.mem_filter.mpr ⟨hc.1, k.not_open hb hs hsg (.inl hc.2), p, (k.isNumber hb hs hsg).mp hp, hn⟩
    · rw [if_neg d1]
      refine ⟨_, rfl, by simp, ?_⟩
      rintro n g' he
      simp only [Option.some.injEq, Prod.mk.injEq] at he
      obtain ⟨rfl, rfl⟩ := he
      exact ⟨_, d2⟩
  · rw [if_neg e1]
    refine ⟨_, rfl, by simp, ?_⟩
    rintro n g' he
    simp only [Option.some.injEq, Prod.mk.injEq] at he
    obtain ⟨rfl, rfl⟩ := he
    exact ⟨_, e2⟩

/-! ## opening cells -/

theorem zero_forces (hb : BoardOK r c b) {p q : Pos} (hp : p ∈ grid r c) (hs : layout b p = false)
    (h0 : bval b p = 0) (hpO : p ∈ O) (hq : q ∈ grid r c) (hn : Near p q) {σ : Pos → Bool}
    (hσ : Explains r c b O σ) : σ q = false := by
  have h1 := (hσ p hpO).2
  have h2 := hb.number hp hs
  rw [h0] at h2
  have h3 : layoutNear r c σ p = 0 := by rw [h1]; omega
  unfold layoutNear at h3
  rw [Finset.card_eq_zero, Finset.filter_eq_empty_iff] at h3
  have := h3 hq
  by_contra hc
  exact this ⟨hn, by simpa using hc⟩

open Classical in
theorem open_step (hb : BoardOK r c b) (hs : layout b s = false) (hsg : s ∈ grid r c) {g' : Board}
    (hg : Rect g' r c) {n : List Pos} (hO : Openable r c b s O)
    (hn : ∀ p ∈ n, p ∈ grid r c ∧ (p ∈ O ∨ ∀ σ, Explains r c b O σ → σ p = false))
    (ho : ∀ p ∈ O, p ∉ n → bval g' p = bval b p)
    (hc : ∀ p ∈ grid r c, p ∉ O → p ∉ n → bval g' p = 10 ∨
      (bval g' p = 11 ∧ ∀ σ, Explains r c b O σ → σ p = true)) :
    ∃ g'' O', refreshBoard b.view g' n = some g'' ∧ KInv r c b s O' g'' ∧ O ⊆ O' ∧ (∀ p ∈ n, p ∈ O') ∧
      ∀ p ∈ grid r c, p ∉ O' → bval g'' p = bval g' p := by
  have hv := hb.view
  obtain ⟨g'', h1, h2, h3⟩ := refreshBoard_spec (g := g') (clicked := n) hb.le8 (by rw [hv.1, hv.2]; exact hg)
    (fun p hp => by rw [hb.vcells]; exact (hn p hp).1)
  rw [hv.1, hv.2] at h2
  set T := (grid r c).filter fun q => Opens b.view g' n q with hT
  have hcell : ∀ q, Opens b.view g' n q → q ∈ grid r c := by
    intro q hq
    cases hq with
    | click h => exact (hn q h).1
    | spread _ _ h _ _ => rw [hb.vcells] at h; exact h
  have hmem : ∀ q, Opens b.view g' n q → q ∈ T := fun q hq => Finset.mem_filter.mpr ⟨hcell q hq, hq⟩
  have hfam : ∀ q, Opens b.view g' n q → ∃ Oq, Openable r c b s Oq ∧ q ∈ Oq ∧ Oq ⊆ O ∪ T := by
    intro q hq
    induction hq with
    | @click p h =>
      rcases (hn p h).2 with hp | hp
      · exact ⟨O, hO, hp, Finset.subset_union_left⟩
      · refine ⟨insert p O, .step hO (hn p h).1 hp, Finset.mem_insert_self _ _, ?_⟩
        exact Finset.insert_subset (Finset.mem_union_right _ (hmem p (.click h))) Finset.subset_union_left
    | @spread p q hp h0 hqc ha hsh ih =>
      obtain ⟨Op, o1, o2, o3⟩ := ih
      have hq' : q ∈ grid r c := by rw [hb.vcells] at hqc; exact hqc
      refine ⟨insert q Op, .step o1 hq' fun σ hσ => ?_, Finset.mem_insert_self _ _, ?_⟩
      · exact zero_forces hb (hcell p hp) (openable_safe hs o1 p o2) h0 o2 hq' ha.1 hσ
      · exact Finset.insert_subset (Finset.mem_union_right _ (hmem q (.spread hp h0 hqc ha hsh))) o3
  have hOT : Openable r c b s (O ∪ T) :=
    openable_iUnion hO fun q hq => hfam q (Finset.mem_filter.mp hq).2
  have hsafe := openable_safe hs hOT
  have hloss : ¬ ∃ m ∈ vcells b.view, Opens b.view g' n m ∧ val b.view m < 0 := by
    rintro ⟨m, hm, hop, hneg⟩
    have hl := hsafe m (Finset.mem_union_right _ (hmem m hop))
    have := (hb.range (hcell m hop) hl).1
    have e : val b.view m = bval b m := rfl
    omega
  have hval : ∀ q ∈ grid r c, bval g'' q = if Opens b.view g' n q then openMark b.view q else bval g' q := by
    intro q hq
    have := h3 q (by rw [hb.vcells]; exact hq)
    rw [this]
    split
    · rfl
    · rw [if_neg (fun h => hloss h.1)]
  refine ⟨g'', O ∪ T, h1, ⟨h2, hOT, fun p hp => ?_, fun p hp hpO => ?_⟩, Finset.subset_union_left,
    fun p hp => Finset.mem_union_right _ (hmem p (.click hp)), fun p hp hpO => ?_⟩
  · have hpg := openable_grid hsg hOT hp
    rw [hval p hpg]
    split
    · have := (hb.range hpg (hsafe p hp)).1
      unfold openMark
      have e : val b.view p = bval b p := rfl
      rw [if_pos (by omega), e]
    · rename_i hno
      have hpO : p ∈ O := by
        rcases Finset.mem_union.mp hp with h | h
        · exact h
        · exact absurd (Finset.mem_filter.mp h).2 hno
      exact ho p hpO fun hpn => hno (.click hpn)
  · have hno : ¬ Opens b.view g' n p := fun h => hpO (Finset.mem_union_right _ (hmem p h))
    rw [hval p hp, if_neg hno]
    rcases hc p hp (fun h => hpO (Finset.mem_union_left _ h)) (fun h => hno (.click h)) with h | ⟨h, hf⟩
    · exact .inl h
    · exact .inr ⟨h, fun σ hσ => hf σ (explains_mono hσ Finset.subset_union_left)⟩
  · have hno : ¬ Opens b.view g' n p := fun h => hpO (Finset.mem_union_right _ (hmem p h))
    rw [hval p hp, if_neg hno]

/-- the covered cells of the game board -/
def tens (r c : Nat) (g : Board) : Nat := ((grid r c).filter fun p => bval g p = 10).card

theorem found_step (hb : BoardOK r c b) (hs : layout b s = false) (hsg : s ∈ grid r c) (k : KInv r c b s O g)
    {n i : List Pos} {g' : Board} (hf : Found r c b O g n i g') :
    ∃ g'' O', refreshBoard b.view g' n = some g'' ∧ KInv r c b s O' g'' ∧ tens r c g'' < tens r c g := by
  have hnO : ∀ p, bval g p = 10 → p ∉ O := fun p hp => k.not_open hb hs hsg (.inl hp)
  obtain ⟨g'', O', h1, h2, h3, h4, h5⟩ := open_step hb hs hsg hf.rect (n := n) k.openable
    (fun p hp => ⟨(hf.safe p hp).1, .inr (hf.safe p hp).2.2⟩)
    (fun p hp hpn => by
      rw [hf.rest p (fun hi => hnO p (hf.mine p hi).2.1 hp) hpn, k.opened p hp])
    (fun p hp hpO hpn => by
      by_cases hi : p ∈ i
      · exact .inr ⟨hf.marked p hi, (hf.mine p hi).2.2⟩
      · rw [hf.rest p hi hpn]; exact k.covered p hp hpO)
  refine ⟨g'', O', h1, h2, ?_⟩
  have hiO : ∀ p ∈ i, p ∉ O' := by
    intro p hp hpO
    have e1 := openable_safe hs h2.openable p hpO
    rw [(hf.mine p hp).2.2 _ (layout_explains (openable_safe hs k.openable))] at e1
    simp at e1
  have hten : ∀ p ∈ grid r c, bval g'' p = 10 → p ∉ n ∧ p ∉ i ∧ bval g p = 10 := by
    intro p hp h10
    have hpO : p ∉ O' := h2.not_open hb hs hsg (.inl h10)
    have hpn : p ∉ n := fun h => hpO (h4 p h)
    rw [h5 p hp hpO] at h10
    have hpi : p ∉ i := fun h => by rw [hf.marked p h] at h10; omega
    exact ⟨hpn, hpi, by rw [hf.rest p hpi hpn] at h10; exact h10⟩
  unfold tens
  apply Finset.card_lt_card
  rw [Finset.ssubset_iff_of_subset]
  · rcases hf.some with h | h
    · obtain ⟨p, hp⟩ := List.exists_mem_of_ne_nil _ h
      refine ⟨p, Finset.mem_filter.mpr ⟨(hf.safe p hp).1, (hf.safe p hp).2.1⟩, fun hc => ?_⟩
      exact (hten p (Finset.mem_filter.mp hc).1 (Finset.mem_filter.mp hc).2).1 hp
    · obtain ⟨p, hp⟩ := List.exists_mem_of_ne_nil _ h
      refine ⟨p, Finset.mem_filter.mpr ⟨(hf.mine p hp).1, (hf.mine p hp).2.1⟩, fun hc => ?_⟩
      exact (hten p (Finset.mem_filter.mp hc).1 (Finset.mem_filter.mp hc).2).2.1 hp
  · intro p hp
    obtain ⟨a, b'⟩ := Finset.mem_filter.mp hp
    exact Finset.mem_filter.mpr ⟨a, (hten p a b').2.2⟩

theorem isVictory_iff (hb : BoardOK r c b) (hs : layout b s = false) (hsg : s ∈ grid r c) (k : KInv r c b s O g) :
    isVictory g b = true ↔ ∀ p ∈ grid r c, layout b p = false → p ∈ O := by
  have hd := rect_dims k.rect hb.rpos
  unfold isVictory
  rw [List.all_eq_true]
  constructor
  · intro h p hp hl
    by_contra hO
    have h1 := h p (mem_cells_grid.mpr (by rw [hd.1, hd.2]; exact hp))
    rcases k.covered p hp hO with h10 | ⟨_, hf⟩
    · have hne := layout_false.mp hl
      have e1 : bval g p = g.get p.1 p.2 := rfl
      have e2 : bval b p = b.get p.1 p.2 := rfl
      rw [e1] at h10
      rw [e2] at hne
      simp [h10, hne] at h1
    · have := hf _ (layout_explains (openable_safe hs k.openable))
      rw [hl] at this; simp at this
  · intro h p hp
    have hp' : p ∈ grid r c := by have := mem_cells_grid.mp hp; rwa [hd.1, hd.2] at this
    by_contra hc
    rw [Bool.not_eq_true, Bool.not_eq_false', Bool.and_eq_true, decide_eq_true_eq, decide_eq_true_eq] at hc
    exact k.not_open hb hs hsg (.inl hc.1) (h p hp' (layout_false.mpr hc.2))

theorem solvableLoop_spec (hb : BoardOK r c b) (hs : layout b s = false) (hsg : s ∈ grid r c) (fuel : Nat) :
    ∀ (g : Board) (O : Finset Pos), KInv r c b s O g → isVictory g b = false → tens r c g < fuel →
    ∃ v, solvableLoop b fuel g = some v ∧ (v = true → NoGuess r c b s) ∧
      (v = false → ¬ NoGuess r c b s ∨ ∃ O, Openable r c b s O ∧ ENUM_LIMIT < (border r c O).card) := by
  induction fuel with
  | zero => intro g O _ _ h; omega
  | succ fuel ih =>
    intro g O k hnv hf
    obtain ⟨res, h1, h2, h3⟩ := solvablePick_spec hb hs hsg k
    rw [solvableLoop, h1]
    cases res with
    | none =>
      refine ⟨false, rfl, by simp, fun _ => ?_⟩
      rcases h2 rfl with h | h
      · left
        rintro ⟨O', o1, o2⟩
        have hsub := openable_le (openable_start k.openable) h o1
        have := (isVictory_iff hb hs hsg k).mpr fun p hp hl => hsub (o2 p hp hl)
        rw [hnv] at this; simp at this
      · exact .inr ⟨O, k.openable, h⟩
    | some x =>
      obtain ⟨n, g'⟩ := x
      obtain ⟨i, hfd⟩ := h3 n g' rfl
      obtain ⟨g'', O', s1, s2, s3⟩ := found_step hb hs hsg k hfd
      simp only
      rw [s1]
      simp only
      by_cases hv : isVictory g'' b = true
      · rw [if_pos hv]
        exact ⟨true, rfl, fun _ => ⟨O', s2.openable, (isVictory_iff hb hs hsg s2).mp hv⟩, by simp⟩
      · rw [if_neg hv]
        exact ih g'' O' s2 (by simpa using hv) (by omega)

theorem isSolvable_spec (hb : BoardOK r c b) (hr : 3 ≤ r) (hc : 3 ≤ c) (hs : layout b s = false)
    (hsg : s ∈ grid r c) :
    ∃ u v, unsolvableStructure b = some u ∧ isSolvable b s.1 s.2 = some v ∧ (v = true → NoGuess r c b s) ∧
      (u = false → v = false → ¬ NoGuess r c b s ∨ ∃ O, Openable r c b s O ∧ ENUM_LIMIT < (border r c O).card) ∧
      (u = true → v = false) := by
  have hd := rect_dims hb.rect hb.rpos
  obtain ⟨u, hu⟩ : ∃ u, unsolvableStructure b = some u := by
    unfold unsolvableStructure
    simp only
    rw [if_neg (by omega)]
    exact ⟨_, rfl⟩
  refine ⟨u, ?_⟩
  unfold isSolvable
  rw [hu]
  simp only [Option.bind_eq_bind, Option.bind_some]
  cases u with
  | true => exact ⟨false, trivial, rfl, by simp, by simp, by simp⟩
  | false =>
    have hg : Rect (List.replicate b.row (List.replicate b.col (10 : Int))) r c := by
      rw [hd.1, hd.2]
      exact ⟨by simp, fun l hl => by rw [List.eq_of_mem_replicate hl]; simp⟩
    have hten : ∀ p ∈ grid r c, bval (List.replicate b.row (List.replicate b.col (10 : Int))) p = 10 := by
      intro p hp
      have hp' := mem_grid.mp hp
      rw [hd.1, hd.2]
      simp [bval, Board.get, List.getD_eq_getElem?_getD, List.getElem?_replicate, hp'.1, hp'.2]
    obtain ⟨g, O, h1, h2, -, h4, h5⟩ := open_step hb hs hsg hg (n := [s]) Openable.start
      (fun p hp => ⟨by rw [List.mem_singleton.mp hp]; exact hsg, .inl (by simpa using hp)⟩)
      (fun p hp hpn => absurd (by simpa using hp) hpn)
      (fun p hp _ _ => .inl (hten p hp))
    simp only [Bool.false_eq_true, if_false, h1, Option.bind_some, pure]
    by_cases hv : isVictory g b = true
    · rw [if_pos hv]
      exact ⟨true, trivial, rfl, fun _ => ⟨O, h2.openable, (isVictory_iff hb hs hsg h2).mp hv⟩, by simp, by simp⟩
    · rw [if_neg hv]
      have ht : tens r c g < b.row * b.col + 1 := by
        rw [hd.1, hd.2, ← card_grid]
        exact Nat.lt_succ_of_le (Finset.card_filter_le _ _)
      obtain ⟨v, v1, v2, v3⟩ := solvableLoop_spec hb hs hsg _ g O h2 (by simpa using hv) ht
      exact ⟨v, trivial, v1, v2, fun _ => v3, by simp⟩

end Ms
