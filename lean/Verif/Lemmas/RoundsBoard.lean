import Verif.Lemmas.RoundsSys
import Verif.Lemmas.ChunkConn
import Verif.Lemmas.Chain

/-! The rounds of the solvers on a game board. -/

namespace Ms
open Spec

variable {E : Set (Set Pos)} {σ : Pos → Bool} {K : Set Pos} {S S' : Sys} {g : Board} {r c : Nat}

theorem Left.refresh (hs : SysFor r c g S) (he : refreshMatrixs g = some S) (hc : Consistent g σ) : Left (numbersOf g) σ ∅ S := by
  have hq := EqsOf.refresh he
  have hcov : ∀ B ∈ S, ∀ q ∈ B.x, IsCovered g q := fun B hB q hq => ((hs.cells q).mp (mem_sysCells.mpr ⟨B, hB, hq⟩)).1
  have hmap : ∀ B ∈ S, ∀ n, B.x.map (coeff n) = B.x.map (ind {t | IsCovered g t ∧ Near n t}) := by
    intro B hB n
    refine List.map_congr_left fun q hq => ?_
    by_cases h : Near n q
    · rw [coeff_eq_one.mpr h, ind_eq_one.mpr]
      exact ⟨hcov B hB q hq, h⟩
    · have h1 : coeff n q ≠ 1 := fun h' => h (coeff_eq_one.mp h')
      have h2 : coeff n q = 0 := by
        unfold coeff at h1 ⊢
        split at h1 <;> simp_all
      rw [h2, ind_eq_zero.mpr]
      exact fun h' => h h'.2
  refine ⟨hs.good.rect, hs.good.covered, (hs.solves σ).mpr hc, hs.good.nodup, fun p => ?_, fun B hB row hr => ?_, ?_⟩
  · rw [hs.cells]
    constructor
    · rintro ⟨h1, n, hn, h2⟩
      exact ⟨by simp, _, ⟨n, hn, rfl⟩, h1, h2⟩
    · rintro ⟨-, e, ⟨n, hn, rfl⟩, h1, h2⟩
      exact ⟨h1, n, hn, h2⟩
  · obtain ⟨n, n1, n2, n3⟩ := hq.row B hB row hr
    exact ⟨_, ⟨n, n1, rfl⟩, n2.trans (hmap B hB n), fun t ht => .inr (n3 t ht.1 ht.2)⟩
  · rintro e ⟨n, hn, rfl⟩ t ⟨ht, hnt⟩ -
    obtain ⟨B, hB, row, hr, h1, h2⟩ := hq.all n t hn ht hnt
    exact ⟨B, hB, ⟨row, hr, h1.trans (hmap B hB n)⟩, fun t ht => .inr (h2 t ht.1 ht.2)⟩

theorem Left.inRow (h : Left E σ K S) {B : Block} (hB : B ∈ S) {p q : Pos} (hr : InRow B p q) :
    ∃ e ∈ E, p ∈ e ∧ q ∈ e ∧ p ∉ K ∧ q ∉ K := by
  obtain ⟨row, hrow, ⟨k, a1, rfl, a3⟩, k', b1, rfl, b3⟩ := hr
  obtain ⟨e, he, h1, -⟩ := h.row B hB row hrow
  rw [h1, getD_map_lt _ _ a1] at a3
  rw [h1, getD_map_lt _ _ b1] at b3
  exact ⟨e, he, ind_eq_one.mp a3, ind_eq_one.mp b3, h.unknown hB (getD_mem_of_lt _ a1), h.unknown hB (getD_mem_of_lt _ b1)⟩

/-- the blocks of a system hang together -/
def ConnS (E : Set (Set Pos)) (K : Set Pos) (S : Sys) : Prop := ∀ B ∈ S, ∀ p ∈ B.x, ∀ q ∈ B.x, Knotted E K p q

theorem Left.chunk_conn (h : Left E σ K S) (hr : ∀ B ∈ S, B.rows ≠ []) (hh : ∀ B ∈ S, RowsHit B)
    (hs : Ms.chunkMatrixes S = some S') : ConnS E K S' := by
  intro B' hB' p hp q hq
  obtain ⟨B, hB, h1⟩ := chunkMatrixes_conn (fun B hB => ⟨h.rect B hB, hh B hB, h.covered B hB, hr B hB⟩) hs B' hB'
  have hrel := h1 p hp q hq
  clear hq
  induction hrel with
  | refl => exact .refl
  | tail _ h2 ih => exact .tail ih (h.inRow hB h2)

theorem Left.direct_conn (h : Left E σ K S) {out : SolveOut} (ho : Ms.solveDirect S g = some out) : ConnS E (singles σ E K) out.sys := by
  obtain ⟨-, m, l, -, o2, -⟩ := h.solveDirect ho
  have h1 := h.direct ⟨[], [], g⟩
  obtain ⟨l', d1, -, d3, d4⟩ := directSweep_spec ⟨[], [], g⟩ S h.rect h.covered
  unfold Ms.solveDirect at ho
  simp only at ho
  split at ho
  · obtain rfl := Option.some.inj ho
    simp at o2
  · cases hS : Ms.chunkMatrixes (directSweep S ⟨[], [], g⟩).1 with
    | none => rw [hS] at ho; simp at ho
    | some S' =>
      rw [hS] at ho
      obtain rfl := Option.some.inj ho
      refine h1.chunk_conn d3 (fun B hB r hr => ?_) hS
      refine hit_of_pos (σ := σ) (h1.rect B hB r hr).2 (x := B.x) ?_
      have e1 := lhs_nonneg σ r.1 B.x (h1.rect B hB r hr).2
      have e2 := h1.sat B hB r hr
      have e3 := d4 B hB r hr
      omega

theorem Left.minus_conn (h : Left E σ K S) {out : SolveOut} (ho : Ms.solveMinus S g = some out) : ConnS E (pairs σ E K) out.sys := by
  have h1 := h.minus ⟨[], [], g⟩
  unfold Ms.solveMinus at ho
  simp only [Option.bind_eq_bind] at ho
  cases hd : Ms.solveDirect (minusSweep S ⟨[], [], g⟩).1 (minusSweep S ⟨[], [], g⟩).2.board with
  | none => rw [hd] at ho; simp at ho
  | some d =>
    rw [hd] at ho
    simp only [Option.bind_some] at ho
    obtain ⟨h2, m', l', -, p2, -, -, p5, p6, -⟩ := h1.solveDirect hd
    rw [p2] at ho
    simp only at ho
    cases hS : Ms.chunkMatrixes d.sys with
    | none => rw [hS] at ho; simp at ho
    | some S' =>
      rw [hS] at ho
      obtain rfl := Option.some.inj ho
      exact h2.chunk_conn p6 p5 hS

/-- a block is a whole group of tied cells -/
theorem Left.knot_iff (h : Left E σ K S) (hc : ConnS E K S) {B : Block} (hB : B ∈ S) {p : Pos} (hp : p ∈ B.x) (q : Pos) :
    q ∈ B.x ↔ Knotted E K p q := by
  refine ⟨fun hq => hc B hB p hp q hq, fun ht => ?_⟩
  induction ht with
  | refl => exact hp
  | tail _ h2 ih =>
    obtain ⟨e, he, a1, a2, a3, a4⟩ := h2
    obtain ⟨-, -, hin⟩ := h.block hB ih he a1
    exact (hin _ a2).resolve_left a4

theorem Left.small_iff (h : Left E σ K S) (hc : ConnS E K S) : (∀ B ∈ S, B.x.length ≤ ENUM_LIMIT) ↔ SmallKnots E K := by
  constructor
  · intro hs l hl hu ht
    cases l with
    | nil => simp
    | cons a l =>
      obtain ⟨B, hB, ha⟩ := mem_sysCells.mp ((h.cells a).mpr (hu a (by simp)))
      have : (a :: l) ⊆ B.x := fun b hb => (h.knot_iff hc hB ha b).mpr (ht a (by simp) b hb)
      exact (hl.subperm this).length_le.trans (hs B hB)
  · intro hs B hB
    have hnd : B.x.Nodup := by
      have := h.nodup
      unfold sysCells at this
      rw [List.nodup_flatMap] at this
      exact this.1 B hB
    exact hs B.x hnd (fun a ha => (h.cells a).mp (mem_sysCells.mpr ⟨B, hB, ha⟩)) (hc B hB)

theorem Left.twin_iff (h : Left E σ K S) {p : Pos} (hp : p ∈ sysCells S) : (∀ B ∈ S, ¬ HasTwin B p) ↔ ¬ TwinIn E K p := by
  have hnd : ∀ B ∈ S, B.x.Nodup := by
    intro B hB
    have := h.nodup
    unfold sysCells at this
    rw [List.nodup_flatMap] at this
    exact this.1 B hB
  have hget : ∀ B ∈ S, ∀ row ∈ B.rows, ∀ e, row.1 = B.x.map (ind e) → ∀ k, k < B.x.length →
      (row.1.getD k 0 = 1 ↔ B.x.getD k (0, 0) ∈ e) := by
    intro B hB row hr e he k hk
    rw [he, getD_map_lt _ _ hk, ind_eq_one]
  constructor
  · rintro hno ⟨q, hne, hq, hall⟩
    obtain ⟨B, hB, hpB⟩ := mem_sysCells.mp hp
    obtain ⟨e, he, hqe⟩ := hq.2
    have hpe := (hall e he).mpr hqe
    have hqB : q ∈ B.x := ((h.block hB hpB he hpe).2.2 q hqe).resolve_left hq.1
    obtain ⟨i, hi, hip⟩ := mem_index hpB
    obtain ⟨j, hj, hjq⟩ := mem_index hqB
    refine hno B hB ⟨i, j, hi, hj, ?_, hip, fun row hr => ?_⟩
    · rintro rfl; exact hne (hjq.symm.trans hip)
    · obtain ⟨e', he', h1, -⟩ := h.row B hB row hr
      rw [h1, getD_map_lt _ _ hi, getD_map_lt _ _ hj, hip, hjq]
      by_cases hpe' : p ∈ e'
      · rw [ind_eq_one.mpr hpe', ind_eq_one.mpr ((hall e' he').mp hpe')]
      · rw [ind_eq_zero.mpr hpe', ind_eq_zero.mpr fun h' => hpe' ((hall e' he').mpr h')]
  · rintro hno B hB ⟨i, j, hi, hj, hij, hip, hrows⟩
    refine hno ⟨B.x.getD j (0, 0), ?_, ?_, fun e he => ?_⟩
    · intro h'
      have e1 : B.x.getD i (0, 0) = B.x[i] := by rw [List.getD_eq_getElem?_getD, List.getElem?_eq_getElem hi]; rfl
      have e2 : B.x.getD j (0, 0) = B.x[j] := by rw [List.getD_eq_getElem?_getD, List.getElem?_eq_getElem hj]; rfl
      rw [← hip, e1, e2] at h'
      exact hij ((hnd B hB).getElem_inj_iff.mp h').symm
    · exact (h.cells _).mp (mem_sysCells.mpr ⟨B, hB, getD_mem_of_lt _ hj⟩)
    · have key : ∀ t ∈ B.x, t ∈ e → (p ∈ e ↔ B.x.getD j (0, 0) ∈ e) := by
        intro t ht hte
        obtain ⟨-, ⟨row, hr, h1⟩, -⟩ := h.block hB ht he hte
        have := hrows row hr
        rw [h1, getD_map_lt _ _ hi, getD_map_lt _ _ hj, hip] at this
        rw [← ind_eq_one, ← ind_eq_one, this]
      have hpB : p ∈ B.x := hip ▸ getD_mem_of_lt _ hi
      exact ⟨fun hpe => (key p hpB hpe).mp hpe, fun hje => (key _ (getD_mem_of_lt _ hj) hje).mpr hje⟩

/-- what a stage has found, in terms of what is left -/
theorem found_iff {n i : List Pos} (hequiv : ∀ σ, Solves σ S ↔ Solves σ S' ∧ (∀ p ∈ n, σ p = false) ∧ (∀ p ∈ i, σ p = true))
    (hperm : (sysCells S).Perm (n ++ i ++ sysCells S')) (hL : Left E σ ∅ S) (hL' : Left E σ K S') (hK : ∀ p ∈ K, ∃ e ∈ E, p ∈ e) (p : Pos) :
    (p ∈ n ↔ p ∈ K ∧ σ p = false) ∧ (p ∈ i ↔ p ∈ K ∧ σ p = true) := by
  obtain ⟨-, hn, hi⟩ := (hequiv σ).mp hL.sat
  have hnd := hperm.nodup_iff.mp hL.nodup
  have hdis := (List.nodup_append.mp hnd).2.2
  have hin : p ∈ n ∨ p ∈ i → p ∈ K := by
    intro h
    by_contra hpK
    have h1 : p ∈ sysCells S := hperm.mem_iff.mpr (by rcases h with h | h <;> simp [h])
    have h2 : p ∈ sysCells S' := (hL'.cells p).mpr ⟨hpK, ((hL.cells p).mp h1).2⟩
    exact hdis p (by rcases h with h | h <;> simp [h]) p h2 rfl
  have hout : p ∈ K → p ∈ n ∨ p ∈ i := by
    intro h
    have h1 : p ∈ sysCells S := (hL.cells p).mpr ⟨by simp, hK p h⟩
    have h2 : p ∉ sysCells S' := fun h' => ((hL'.cells p).mp h').1 h
    have := hperm.mem_iff.mp h1
    simp only [List.mem_append] at this
    exact this.resolve_right h2
  refine ⟨⟨fun h => ⟨hin (.inl h), hn p h⟩, fun h => ?_⟩, ⟨fun h => ⟨hin (.inr h), hi p h⟩, fun h => ?_⟩⟩
  · rcases hout h.1 with h' | h'
    · exact h'
    · rw [hi p h'] at h; simp at h
  · rcases hout h.1 with h' | h'
    · rw [hn p h'] at h; simp at h
    · exact h'

theorem pairs_cells_of (h : ∀ p ∈ K, ∃ e ∈ E, p ∈ e) (p : Pos) (hp : p ∈ pairs σ E K) : ∃ e ∈ E, p ∈ e :=
  (pairs_cells p hp).elim (h p) id

theorem singles_cells_of (h : ∀ p ∈ K, ∃ e ∈ E, p ∈ e) (p : Pos) (hp : p ∈ singles σ E K) : ∃ e ∈ E, p ∈ e :=
  (singles_cells p hp).elim (h p) id

theorem quick_cells (p : Pos) (hp : p ∈ quick σ E) : ∃ e ∈ E, p ∈ e :=
  pairs_cells_of (singles_cells_of (by simp)) p hp

/-- the first two solvers on a board -/
theorem stage_quick {o o2 : SolveOut} {n i : List Pos} (hs : SysFor r c g S) (he : refreshMatrixs g = some S) (hc : Consistent g σ)
    (h1 : solveDirect S g = some o) (h4 : solveMinus o.sys o.board = some o2) (h7 : Stage r c S o2.sys g o2.board n i) :
    Left (numbersOf g) σ (quick σ (numbersOf g)) o2.sys ∧ ConnS (numbersOf g) (quick σ (numbersOf g)) o2.sys ∧
      ∀ p, (p ∈ n ↔ p ∈ quick σ (numbersOf g) ∧ σ p = false) ∧ (p ∈ i ↔ p ∈ quick σ (numbersOf g) ∧ σ p = true) := by
  have hL := Left.refresh hs he hc
  have hL1 := (hL.solveDirect h1).1
  have hL2 := (hL1.solveMinus h4).1
  exact ⟨hL2, hL1.minus_conn h4, found_iff h7.equiv h7.perm hL hL2 quick_cells⟩

/-- the cells of an equation of a block -/
def rowSet (B : Block) (row : List Int × Int) : Set Pos := {p | ∃ k, k < B.x.length ∧ B.x.getD k (0, 0) = p ∧ row.1.getD k 0 = 1}

theorem row_ind {B : Block} (h : Block01 B) (hnd : B.x.Nodup) {row : List Int × Int} (hr : row ∈ B.rows) :
    row.1 = B.x.map (ind (rowSet B row)) := by
  obtain ⟨h1, h2⟩ := h row hr
  refine List.ext_getElem (by simp [h1]) fun k hk hk' => ?_
  have hkx : k < B.x.length := by simpa using hk'
  have e1 : row.1.getD k 0 = row.1[k] := by rw [List.getD_eq_getElem?_getD, List.getElem?_eq_getElem hk]; rfl
  have e2 : B.x.getD k (0, 0) = B.x[k] := by rw [List.getD_eq_getElem?_getD, List.getElem?_eq_getElem hkx]; rfl
  rw [List.getElem_map]
  have h01 := getD_mem01 h2 k
  rw [e1] at h01
  rcases h01 with h0 | h0
  · rw [h0]
    symm
    rw [ind_eq_zero]
    rintro ⟨k', a1, a2, a3⟩
    have e3 : B.x.getD k' (0, 0) = B.x[k'] := by rw [List.getD_eq_getElem?_getD, List.getElem?_eq_getElem a1]; rfl
    rw [e3] at a2
    have := (hnd.getElem_inj_iff).mp a2
    subst this
    rw [e1, h0] at a3
    simp at a3
  · rw [h0]
    symm
    rw [ind_eq_one]
    exact ⟨k, hkx, e2, by rw [e1, h0]⟩

theorem rowSet_ind {B : Block} {row : List Int × Int} {e : Set Pos} (h : row.1 = B.x.map (ind e)) (he : e ⊆ {p | p ∈ B.x}) :
    rowSet B row = e := by
  ext p
  constructor
  · rintro ⟨k, a1, rfl, a3⟩
    rw [h, getD_map_lt _ _ a1] at a3
    exact ind_eq_one.mp a3
  · intro hp
    obtain ⟨k, hk, rfl⟩ := mem_index (he hp)
    exact ⟨k, hk, rfl, by rw [h, getD_map_lt _ _ hk]; exact ind_eq_one.mpr hp⟩

theorem rowSet_sub (B : Block) (row : List Int × Int) : rowSet B row ⊆ {p | p ∈ B.x} := by
  rintro p ⟨k, hk, rfl, -⟩
  exact getD_mem_of_lt _ hk

theorem good_nodup (h : GoodSys S) {B : Block} (hB : B ∈ S) : B.x.Nodup := by
  have := h.nodup
  unfold sysCells at this
  rw [List.nodup_flatMap] at this
  exact this.1 B hB

theorem chunkMatrixes_equations (hg : GoodSys S) (hne : ∀ B ∈ S, B.rows ≠ []) (hh : ∀ B ∈ S, RowsHit B)
    (hs : Ms.chunkMatrixes S = some S') : equationsOf S' = equationsOf S ∧
      ∀ B' ∈ S', ∀ p ∈ B'.x, ∀ q, q ∈ B'.x ↔ Knotted (equationsOf S) ∅ p q := by
  have hgood : ∀ B ∈ S, Block01 B ∧ RowsHit B ∧ BlockCovered B ∧ B.rows ≠ [] := fun B hB =>
    ⟨hg.rect B hB, hh B hB, hg.covered B hB, hne B hB⟩
  obtain ⟨S'', s1, s2⟩ := chunkMatrixes_spec S hgood
  rw [hs] at s1
  obtain rfl := Option.some.inj s1
  have hk := chunkMatrixes_keeps hgood hs
  have hnd' : (sysCells S').Nodup := s2.perm.nodup_iff.mpr hg.nodup
  have hto : ∀ e ∈ equationsOf S, ∃ B' ∈ S', ∃ row' ∈ B'.rows, rowSet B' row' = e ∧ e ⊆ {p | p ∈ B'.x} := by
    rintro e ⟨B, hB, row, hr, rfl⟩
    obtain ⟨B', hB', row', hr', h1⟩ := hk.all B hB row hr
    obtain ⟨h2, h3⟩ := h1 _ (row_ind (hg.rect B hB) (good_nodup hg hB) hr)
    have hin : rowSet B row ⊆ {p | p ∈ B'.x} := fun t ht => h3 t (rowSet_sub B row ht) (ind_eq_one.mpr ht)
    exact ⟨B', hB', row', hr', rowSet_ind h2 hin, hin⟩
  refine ⟨Set.Subset.antisymm ?_ ?_, fun B' hB' p hp q => ⟨fun hq => ?_, fun hq => ?_⟩⟩
  · rintro e ⟨B', hB', row', hr', rfl⟩
    obtain ⟨B, hB, -, h1⟩ := hk.from_ B' hB'
    obtain ⟨row, hr, h2⟩ := h1 row' hr'
    obtain ⟨h3, h4⟩ := h2 _ (row_ind (hg.rect B hB) (good_nodup hg hB) hr)
    exact ⟨B, hB, row, hr, rowSet_ind h3 fun t ht => h4 t (rowSet_sub B row ht) (ind_eq_one.mpr ht)⟩
  · intro e he
    obtain ⟨B', hB', row', hr', h1, -⟩ := hto e he
    exact ⟨B', hB', row', hr', h1.symm⟩
  · obtain ⟨B, hB, h1⟩ := chunkMatrixes_conn hgood hs B' hB'
    have hrel := h1 p hp q hq
    clear hq
    induction hrel with
    | refl => exact .refl
    | tail _ h2 ih =>
      obtain ⟨row, hr, h3, h4⟩ := h2
      exact .tail ih ⟨rowSet B row, ⟨B, hB, row, hr, rfl⟩, h3, h4, by simp, by simp⟩
  · induction hq with
    | refl => exact hp
    | tail _ h2 ih =>
      obtain ⟨e, he, h3, h4, -, -⟩ := h2
      obtain ⟨B1, hB1, row', hr', h5, h6⟩ := hto e he
      obtain rfl := block_unique hnd' hB1 hB' (h6 h3) ih
      exact h6 h4

end Ms
