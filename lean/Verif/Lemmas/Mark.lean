import Verif.Model.Mark
import Verif.Lemmas.Solvable

namespace Ms
open Spec

variable {r c : Nat} {g g' g'' : Board} {S S' S'' : Sys} {n i n' i' : List Pos}

theorem sysFor_of_consistent (h : ∃ σ, Consistent g σ) : ∃ S, refreshMatrixs g = some S ∧ SysFor r c g S := by
  obtain ⟨S, h1, h2, h3, h4, -⟩ := Properties.refresh_matrixs_exact g
  obtain ⟨S', h1', h5⟩ := Properties.refresh_matrixs_consistent g h
  obtain ⟨S'', h1'', h6⟩ := refreshMatrixs_spec g
  rw [h1] at h1' h1''
  obtain rfl := Option.some.inj h1'
  obtain rfl := Option.some.inj h1''
  exact ⟨S, h1, h2, h3, h5, fun B hB => (h4 B hB).2, fun B hB => (h4 B hB).1, h6.weight⟩

/-- A system as the solvers leave it. -/
structure SysOK (S : Sys) : Prop where
  good : GoodSys S
  hit : ∀ B ∈ S, RowsHit B
  rows : ∀ B ∈ S, B.rows ≠ []
  weight : ∀ B ∈ S, RowSum 8 B

theorem SysFor.ok (h : SysFor r c g S) : SysOK S := ⟨h.good, h.hit, h.rows, h.weight⟩

theorem SysOK.enum (h : SysOK S) (hsat : ∃ σ, Solves σ S) : ∀ B ∈ S, EnumOK B := by
  intro B hB
  refine ⟨h.good.rect B hB, ?_, h.good.covered B hB, h.hit B hB, h.rows B hB, h.weight B hB, ?_⟩
  · have := h.good.nodup
    unfold sysCells at this
    rw [List.nodup_flatMap] at this
    exact this.1 B hB
  · obtain ⟨σ, hσ⟩ := hsat
    intro q hq
    have h2 := lhs_nonneg σ q.1 B.x (h.good.rect B hB q hq).2
    rw [hσ B hB q hq] at h2
    exact h2

/-- One or several solver calls: the cells `n` were found safe, the cells `i` mines, and `S'` is left of `S`. -/
structure Stage (r c : Nat) (S S' : Sys) (g g' : Board) (n i : List Pos) : Prop where
  equiv : ∀ σ, Solves σ S ↔ Solves σ S' ∧ (∀ p ∈ n, σ p = false) ∧ (∀ p ∈ i, σ p = true)
  perm : (sysCells S).Perm (n ++ i ++ sysCells S')
  marked : MarkedFrom g g' n i
  ok : SysOK S'
  rect : Rect g' r c

theorem Stage.onBoard (h : Stage r c S S' g g' n i) (hb : Properties.OnBoard S r c) : Properties.OnBoard S' r c :=
  fun p hp => hb p (h.perm.mem_iff.mpr (by simp [hp]))

theorem Stage.mem_n (h : Stage r c S S' g g' n i) {p : Pos} (hp : p ∈ n) : p ∈ sysCells S :=
  h.perm.mem_iff.mpr (by simp [hp])

theorem Stage.mem_i (h : Stage r c S S' g g' n i) {p : Pos} (hp : p ∈ i) : p ∈ sysCells S :=
  h.perm.mem_iff.mpr (by simp [hp])

theorem stage_direct' (hg : GoodSys S) (hw : ∀ B ∈ S, RowSum 8 B) (hr : Rect g r c) (hb : Properties.OnBoard S r c)
    (hsat : ∃ σ, Solves σ S) :
    ∃ o n i, solveDirect S g = some o ∧ o.res = .ok (n, i) ∧ Stage r c S o.sys g o.board n i := by
  obtain ⟨o, m, l, h1, h2, h3, h4, h5, h6, h7, -⟩ := solveDirect_spec (g := g) hg.rect hg.covered hsat
  obtain ⟨e1, e2, e3, e4, e5⟩ := Properties.out_of_spec hg hr hb h2 h4 h5
  exact ⟨o, _, _, h1, h3, e1, e2, e3, ⟨e4, h6, h7, h5.weight 8 hw⟩, e5⟩

theorem stage_direct (hs : SysOK S) (hr : Rect g r c) (hb : Properties.OnBoard S r c) (hsat : ∃ σ, Solves σ S) :
    ∃ o n i, solveDirect S g = some o ∧ o.res = .ok (n, i) ∧ Stage r c S o.sys g o.board n i := by
  obtain ⟨o, m, l, h1, h2, h3, h4, h5, h6, h7, -⟩ := solveDirect_spec (g := g) hs.good.rect hs.good.covered hsat
  obtain ⟨e1, e2, e3, e4, e5⟩ := Properties.out_of_spec hs.good hr hb h2 h4 h5
  exact ⟨o, _, _, h1, h3, e1, e2, e3, ⟨e4, h6, h7, h5.weight 8 hs.weight⟩, e5⟩

theorem stage_minus (hs : SysOK S) (hr : Rect g r c) (hb : Properties.OnBoard S r c) (hsat : ∃ σ, Solves σ S) :
    ∃ o n i, solveMinus S g = some o ∧ o.res = .ok (n, i) ∧ Stage r c S o.sys g o.board n i := by
  obtain ⟨o, m, l, h1, h2, h3, h4, h5, h6, h7, -⟩ := solveMinus_spec (g := g) hs.good.rect hs.good.covered hsat
  obtain ⟨e1, e2, e3, e4, e5⟩ := Properties.out_of_spec hs.good hr hb h2 h4 h5
  exact ⟨o, _, _, h1, h3, e1, e2, e3, ⟨e4, h6, h7, h5.weight 8 hs.weight⟩, e5⟩

theorem Stage.trans (h1 : Stage r c S S' g g' n i) (hn : (sysCells S).Nodup) (h2 : Stage r c S' S'' g' g'' n' i') :
    Stage r c S S'' g g'' (n ++ n') (i ++ i') where
  equiv σ := by
    rw [h1.equiv, h2.equiv]
    simp only [List.mem_append]
    constructor
    · rintro ⟨⟨a, b, d⟩, e, f⟩
      exact ⟨a, fun p hp => hp.elim (e p) (b p), fun p hp => hp.elim (f p) (d p)⟩
    · rintro ⟨a, b, d⟩
      exact ⟨⟨a, fun p hp => b p (.inr hp), fun p hp => d p (.inr hp)⟩, fun p hp => b p (.inl hp), fun p hp => d p (.inl hp)⟩
  perm := by
    refine h1.perm.trans ?_
    refine (h2.perm.append_left (n ++ i)).trans ?_
    have e : (n ++ n' ++ (i ++ i') ++ sysCells S'') = n ++ (n' ++ (i ++ (i' ++ sysCells S''))) := by simp
    have e2 : (n ++ i ++ (n' ++ i' ++ sysCells S'')) = n ++ (i ++ (n' ++ (i' ++ sysCells S''))) := by simp
    rw [e, e2]
    exact (List.perm_append_comm_assoc i n' _).append_left n
  marked := by
    have hd := h1.perm.nodup_iff.mp hn
    intro a b
    rw [h2.marked, h1.marked]
    by_cases hi' : (a, b) ∈ i'
    · simp [hi']
    · by_cases hi : (a, b) ∈ i
      · have : (a, b) ∉ n' := by
          intro h
          have h3 := h2.mem_n h
          rw [List.nodup_append] at hd
          exact hd.2.2 (a, b) (by simp [hi]) _ h3 rfl
        simp [hi, hi', this]
      · by_cases hn' : (a, b) ∈ n'
        · simp [hi, hi', hn']
        · simp [hi, hi', hn']
  ok := h2.ok
  rect := h2.rect

/-- A satisfiable system asks for no impossible number of mines. -/
theorem not_overfull (h : SysOK S) (hsat : ∃ σ, Solves σ S) : overfull S = false := by
  obtain ⟨σ, hσ⟩ := hsat
  rw [← Bool.not_eq_true]
  unfold overfull
  simp only [List.any_eq_true, Bool.or_eq_true, decide_eq_true_eq, not_exists, not_and]
  rintro B hB q hq hc
  have h1 := hσ B hB q hq
  have h2 := lhs_nonneg σ q.1 B.x (h.good.rect B hB q hq).2
  have h3 := lhs_le_sum σ q.1 B.x (h.good.rect B hB q hq).1 (h.good.rect B hB q hq).2
  omega

/-- What the whole chain direct, minus does on a consistent board. -/
theorem stage_both (hr : Rect g r c) (hr0 : 0 < r) (hs : SysFor r c g S) (hc : ∃ σ, Consistent g σ) :
    ∃ o n i o2 n2 i2, solveDirect S g = some o ∧ o.res = .ok (n, i) ∧ Stage r c S o.sys g o.board n i ∧
      solveMinus o.sys o.board = some o2 ∧ o2.res = .ok (n2, i2) ∧
      Stage r c o.sys o2.sys o.board o2.board n2 i2 ∧ Stage r c S o2.sys g o2.board (n ++ n2) (i ++ i2) ∧
      (∃ σ, Solves σ o.sys) ∧ ∃ σ, Solves σ o2.sys := by
  obtain ⟨σ, hσ⟩ := hc
  have hσ := (hs.solves σ).mpr hσ
  have hd := rect_dims hr hr0
  have hb : Properties.OnBoard S r c := by
    intro p hp
    have := ((hs.cells p).mp hp).1.1
    rw [hd.1, hd.2] at this
    exact mem_grid.mp this
  obtain ⟨o, n, i, h1, h2, h3⟩ := stage_direct hs.ok hr hb ⟨σ, hσ⟩
  have hσ2 := ((h3.equiv σ).mp hσ).1
  obtain ⟨o2, n2, i2, h4, h5, h6⟩ := stage_minus h3.ok h3.rect (h3.onBoard hb) ⟨σ, hσ2⟩
  exact ⟨o, n, i, o2, n2, i2, h1, h2, h3, h4, h5, h6, h3.trans hs.good.nodup h6, ⟨σ, hσ2⟩, σ, ((h6.equiv σ).mp hσ2).1⟩

end Ms
