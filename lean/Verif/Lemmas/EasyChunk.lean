import Verif.Lemmas.EasyFound

/-! Cutting a system into blocks keeps its equations. -/

namespace Ms
open Spec

/-- the equation `row'` of `B'` is the equation `row` of `B`: no cell that occurs in it is lost -/
def Keeps (B B' : Block) (row row' : List Int × Int) : Prop :=
  ∀ f : Pos → Int, row.1 = B.x.map f → row'.1 = B'.x.map f ∧ ∀ t ∈ B.x, f t = 1 → t ∈ B'.x

/-- the blocks `S` are made of the equations of `B` -/
structure ChunkOf (B : Block) (S : Sys) : Prop where
  sub : ∀ B' ∈ S, ∀ p ∈ B'.x, p ∈ B.x
  from_ : ∀ B' ∈ S, ∀ row' ∈ B'.rows, ∃ row ∈ B.rows, Keeps B B' row row'
  all : ∀ row ∈ B.rows, ∃ B' ∈ S, ∃ row' ∈ B'.rows, Keeps B B' row row'

theorem Keeps.trans {B B' B'' : Block} {row row' row'' : List Int × Int} (h : Keeps B B' row row') (h' : Keeps B' B'' row' row'') :
    Keeps B B'' row row'' := by
  intro f hf
  obtain ⟨h1, h2⟩ := h f hf
  obtain ⟨h3, h4⟩ := h' f h1
  exact ⟨h3, fun t ht h => h4 t (h2 t ht h) h⟩

theorem keepIf_map {α β : Type} (f : α → β) : ∀ (l : List α) (g : Nat → Bool), keepIf g (l.map f) = (keepIf g l).map f := by
  intro l
  induction l with
  | nil => intro g; rfl
  | cons a l ih => intro g; simp only [List.map_cons, keepIf, ih, List.map_append]; cases g 0 <;> simp

theorem subBlock_keeps {B : Block} {f g : Nat → Bool} (hcl : ClosedSel B f g) {i : Nat} (hi : i < B.rows.length)
    (hf : f i = true) :
    Keeps B (subBlock B f g) (B.rows.getD i ([], 0)) (keepIf g (B.rows.getD i ([], 0)).1, (B.rows.getD i ([], 0)).2) := by
  intro h hh
  refine ⟨?_, fun t ht h1 => ?_⟩
  · simp only [subBlock]
    rw [hh, keepIf_map]
  · obtain ⟨k, hk, rfl⟩ := List.getElem_of_mem ht
    refine (keepIf_mem (0, 0) _ _ _).mpr ⟨k, hk, ?_, by rw [List.getD_eq_getElem?_getD, List.getElem?_eq_getElem hk]; rfl⟩
    rw [← hcl i k hi hk (by
      rw [hh, List.getD_eq_getElem?_getD, List.getElem?_map, List.getElem?_eq_getElem hk]
      exact h1)]
    exact hf

theorem revBlock_keeps (B : Block) (row : List Int × Int) : Keeps B (revBlock B) row (row.1.reverse, row.2) := by
  intro f hf
  refine ⟨?_, fun t ht _ => ?_⟩
  · simp only [revBlock]; rw [hf, List.map_reverse]
  · simp only [revBlock]; exact List.mem_reverse.mpr ht

theorem row_index {B : Block} {row : List Int × Int} (h : row ∈ B.rows) : ∃ i, i < B.rows.length ∧ B.rows.getD i ([], 0) = row := by
  obtain ⟨i, hi, rfl⟩ := List.getElem_of_mem h
  exact ⟨i, hi, by rw [List.getD_eq_getElem?_getD, List.getElem?_eq_getElem hi]; rfl⟩

/-- the picked block and, if equations are left, the chunks of the rest -/
theorem chunkOf_cons {B : Block} {f g : Nat → Bool} (hcl : ClosedSel B f g) {S : Sys}
    (hS : ChunkOf (subBlock B (fun i => !f i) fun i => !g i) S) : ChunkOf B (revBlock (subBlock B f g) :: S) := by
  have hsub : ∀ (f g : Nat → Bool), ∀ p ∈ (subBlock B f g).x, p ∈ B.x := by
    intro f g p hp
    obtain ⟨k, hk, -, rfl⟩ := (keepIf_mem (0, 0) _ _ _).mp hp
    exact getD_mem_of_lt _ hk
  have hrow : ∀ {f g : Nat → Bool}, ClosedSel B f g → ∀ row' ∈ (subBlock B f g).rows, ∃ row ∈ B.rows,
      Keeps B (subBlock B f g) row row' := by
    intro f g hcl row' hr
    obtain ⟨i, hi, hf, rfl⟩ := mem_subBlock hr
    exact ⟨_, getD_rows_mem hi, subBlock_keeps hcl hi hf⟩
  refine ⟨?_, ?_, ?_⟩
  · refine List.forall_mem_cons.mpr ⟨fun p hp => hsub f g p ?_, fun B' hB' p hp => hsub _ _ p (hS.sub B' hB' p hp)⟩
    simpa [revBlock] using hp
  · refine List.forall_mem_cons.mpr ⟨fun row' hr => ?_, fun B' hB' row' hr => ?_⟩
    · have h1 := mem_revBlock.mp hr
      obtain ⟨row, h2, h3⟩ := hrow hcl _ h1
      refine ⟨row, h2, h3.trans ?_⟩
      have := revBlock_keeps (subBlock B f g) (row'.1.reverse, row'.2)
      simpa using this
    · obtain ⟨row1, h1, h2⟩ := hS.from_ B' hB' row' hr
      obtain ⟨row, h3, h4⟩ := hrow hcl.neg _ h1
      exact ⟨row, h3, h4.trans h2⟩
  · intro row hr
    obtain ⟨i, hi, rfl⟩ := row_index hr
    rcases Bool.eq_false_or_eq_true (f i) with hf | hf
    · refine ⟨_, List.mem_cons_self, _, ?_, (subBlock_keeps hcl hi hf).trans (revBlock_keeps _ _)⟩
      rw [mem_revBlock]
      simpa using subBlock_mem hi hf
    · have hf' : (fun i => !f i) i = true := by simp [hf]
      obtain ⟨B', h1, row', h2, h3⟩ := hS.all _ (subBlock_mem (g := fun i => !g i) hi hf')
      exact ⟨B', List.mem_cons_of_mem _ h1, row', h2, (subBlock_keeps hcl.neg hi hf').trans h3⟩

theorem chunkLoop_keeps (fuel : Nat) : ∀ (B : Block) (S : Sys), Block01 B → RowsHit B → BlockCovered B → B.rows ≠ [] →
    B.x.length < fuel → chunkLoop fuel B = some S → ChunkOf B S := by
  induction fuel with
  | zero => intro B _ _ _ _ _ hf; omega
  | succ fuel ih =>
    intro B T h hh hc hne hf hT
    have hrl : 0 < B.rows.length := List.length_pos_iff.mpr hne
    obtain ⟨k0, hk0⟩ := hh _ (getD_rows_mem hrl)
    have hxl : 0 < B.x.length := by have := hit_lt h hrl hk0; omega
    obtain ⟨row, rest, hrows⟩ : ∃ row rest, B.rows = row :: rest := by
      cases hb : B.rows with
      | nil => exact absurd hb hne
      | cons row rest => exact ⟨row, rest, rfl⟩
    have hrowl : row.1.length = B.x.length := (h row (by simp [hrows])).1
    rw [chunkLoop, hrows] at hT
    simp only at hT
    rw [if_neg (by omega), ← hrows, hrowl] at hT
    have inv0 := bfsInv_init (B := B) hxl
    obtain ⟨rb, cb, e1, e2, e3⟩ := chunkBfs_spec h (B.rows.length + 2) [0] _ _ inv0 (by
      have := List.count_le_length (a := false) (l := List.replicate B.rows.length false)
      simp only [List.length_replicate] at this; omega)
    have hcb0 : cb.getD 0 false = true := by
      apply e3 0 hxl
      rw [List.getD_eq_getElem?_getD, List.getElem?_set_self (by simpa using hxl)]; rfl
    have hcl : ClosedSel B (fun i => rb.getD i false) (fun i => cb.getD i false) := by
      intro r c hr hc' h1
      have hhit := (hit_iff h r c).mpr ⟨hr, h1⟩
      simp only
      rcases Bool.eq_false_or_eq_true (cb.getD c false) with hcb | hcb
      · rw [hcb]
        rcases e2.cols c hc' hcb with h2 | h2
        · simp at h2
        · exact h2 r hr hhit
      · rw [hcb]
        by_contra hrb
        rw [Bool.not_eq_false] at hrb
        rw [e2.rows r hr hrb c hc' hhit] at hcb; simp at hcb
    rw [e1] at hT
    simp only [Option.bind_eq_bind, Option.bind_some] at hT
    have hpick : pickBlock B (trueDesc rb) (trueDesc cb) =
        revBlock (subBlock B (fun i => rb.getD i false) (fun i => cb.getD i false)) := by
      rw [pickBlock_eq h e2.rlen e2.clen]
      simp [revBlock, subBlock]
    have hdrop : dropBlock B (trueDesc rb) (trueDesc cb) =
        subBlock B (fun i => !rb.getD i false) (fun i => !cb.getD i false) := dropBlock_eq h e2.rlen e2.clen
    rw [hpick, hdrop] at hT
    generalize hf' : (fun i => rb.getD i false) = f at *
    generalize hg' : (fun i => cb.getD i false) = g at *
    have hg0 : g 0 = true := by rw [← hg']; exact hcb0
    have hf'' : (fun i => !rb.getD i false) = fun i => !f i := by rw [← hf']
    have hg'' : (fun i => !cb.getD i false) = fun i => !g i := by rw [← hg']
    rw [hf'', hg''] at hT
    have hkn := keepIf_length_not (l := B.x) hxl hg0
    by_cases hB' : (subBlock B (fun i => !f i) fun i => !g i).rows = []
    · rw [if_pos hB'] at hT
      obtain rfl := Option.some.inj hT
      refine chunkOf_cons hcl ⟨by simp, by simp, fun row hr => ?_⟩
      rw [hB'] at hr
      simp at hr
    · rw [if_neg hB'] at hT
      obtain ⟨S, s1, -⟩ := chunkLoop_spec fuel _ (subBlock_01 h _ _) (subBlock_hit h hh hcl.neg) (subBlock_covered h hc hcl.neg)
        hB' (by
          have := hkn.1
          simp only [subBlock]; omega)
      rw [s1] at hT
      obtain rfl := Option.some.inj hT
      exact chunkOf_cons hcl (ih _ S (subBlock_01 h _ _) (subBlock_hit h hh hcl.neg) (subBlock_covered h hc hcl.neg)
        hB' (by
          have := hkn.1
          simp only [subBlock]; omega) s1)

/-- `chunk_matrixes` on a system -/
structure ChunksOf (S S' : Sys) : Prop where
  from_ : ∀ B' ∈ S', ∃ B ∈ S, (∀ p ∈ B'.x, p ∈ B.x) ∧ ∀ row' ∈ B'.rows, ∃ row ∈ B.rows, Keeps B B' row row'
  all : ∀ B ∈ S, ∀ row ∈ B.rows, ∃ B' ∈ S', ∃ row' ∈ B'.rows, Keeps B B' row row'

theorem chunkMapM_keeps : ∀ (S : Sys) (L : List Sys), (∀ B ∈ S, Block01 B ∧ RowsHit B ∧ BlockCovered B ∧ B.rows ≠ []) →
    S.mapM chunkMatrix = some L → ChunksOf S L.flatten := by
  intro S
  induction S with
  | nil =>
    intro L _ h
    rw [List.mapM_nil] at h
    obtain rfl := Option.some.inj h
    exact ⟨by simp, by simp⟩
  | cons B S ih =>
    intro L h hL
    obtain ⟨h1, h2, h3, h4⟩ := h B (by simp)
    obtain ⟨T, t1, -⟩ := chunkMatrix_spec h1 h2 h3 h4
    obtain ⟨L', l1, -⟩ := chunkMapM_spec S (fun B hB => h B (by simp [hB]))
    rw [List.mapM_cons, t1, l1] at hL
    obtain rfl := Option.some.inj hL
    have k1 := chunkLoop_keeps _ B T h1 h2 h3 h4 (by omega) t1
    have k2 := ih L' (fun B hB => h B (by simp [hB])) l1
    refine ⟨fun B' hB' => ?_, fun B0 hB0 row hr => ?_⟩
    · rw [List.flatten_cons, List.mem_append] at hB'
      rcases hB' with hB' | hB'
      · exact ⟨B, by simp, k1.sub B' hB', k1.from_ B' hB'⟩
      · obtain ⟨B1, a1, a2⟩ := k2.from_ B' hB'
        exact ⟨B1, by simp [a1], a2⟩
    · rcases List.mem_cons.mp hB0 with rfl | hB0
      · obtain ⟨B', a1, a2⟩ := k1.all row hr
        exact ⟨B', by simp [a1], a2⟩
      · obtain ⟨B', a1, a2⟩ := k2.all B0 hB0 row hr
        exact ⟨B', by rw [List.flatten_cons]; exact List.mem_append_right _ a1, a2⟩

theorem chunkMatrixes_keeps {S S' : Sys} (h : ∀ B ∈ S, Block01 B ∧ RowsHit B ∧ BlockCovered B ∧ B.rows ≠ [])
    (hs : chunkMatrixes S = some S') : ChunksOf S S' := by
  obtain ⟨L, l1, -⟩ := chunkMapM_spec S.reverse (fun B hB => h B (by simpa using hB))
  rw [chunkMatrixes, l1] at hs
  obtain rfl := Option.some.inj hs
  have k := chunkMapM_keeps S.reverse L (fun B hB => h B (by simpa using hB)) l1
  refine ⟨fun B' hB' => ?_, fun B hB row hr => k.all B (by simpa using hB) row hr⟩
  obtain ⟨B, a1, a2⟩ := k.from_ B' hB'
  exact ⟨B, by simpa using a1, a2⟩

/-! ## the equations of a game board -/

/-- `S` consists of the equations of the numbers on `g`, each with all its covered cells in one block, and the cells of a block
are linked -/
structure EqsOf (g : Board) (S : Sys) : Prop where
  row : ∀ B ∈ S, ∀ row ∈ B.rows, ∃ n, IsNumber g n ∧ row.1 = B.x.map (coeff n) ∧ ∀ t, IsCovered g t → Near n t → t ∈ B.x
  all : ∀ n t, IsNumber g n → IsCovered g t → Near n t →
    ∃ B ∈ S, ∃ row ∈ B.rows, row.1 = B.x.map (coeff n) ∧ ∀ t, IsCovered g t → Near n t → t ∈ B.x
  conn : ∀ B ∈ S, ∀ p ∈ B.x, ∀ q ∈ B.x, SharesNumbers g p q

theorem EqsOf.refresh {g : Board} {S : Sys} (h : refreshMatrixs g = some S) : EqsOf g S := by
  obtain ⟨S', s1, s2⟩ := refreshMatrixs_spec g
  rw [h] at s1
  obtain rfl := Option.some.inj s1
  have hclose : ∀ B ∈ S, ∀ n, IsNumber g n → (∃ t ∈ B.x, IsCovered g t ∧ Near n t) → ∀ t, IsCovered g t → Near n t → t ∈ B.x := by
    rintro B hB n hn ⟨t0, h0, h1, h2⟩ t ht hnt
    exact (shares_iff_block s2 hB h0).mp (Relation.ReflTransGen.single ⟨ht, n, hn, h2, hnt⟩)
  refine ⟨fun B hB row hr => ?_, fun n t hn ht hnt => ?_, s2.conn⟩
  · obtain ⟨ns, n1, n2, n3⟩ := refreshMatrixs_rows h hB
    rw [n1] at hr
    obtain ⟨n, hn, rfl⟩ := List.mem_map.mp hr
    refine ⟨n, n2 n hn, rfl, ?_⟩
    have hmem : (B.x.map (coeff n), rhsOf g n) ∈ B.rows := by rw [n1]; exact List.mem_map.mpr ⟨n, hn, rfl⟩
    obtain ⟨k, hk⟩ := (s2.good B hB).2.2.1 _ hmem
    obtain ⟨k1, k2⟩ := getD_map_coeff n B.x hk
    obtain ⟨p, hp, hpu⟩ := (s2.cells _).mp (List.mem_flatMap.mpr ⟨B, hB, k1⟩)
    exact hclose B hB n (n2 n hn) ⟨_, k1, (mem_unknownsOf.mp hpu).1, k2⟩
  · have hmem := mem_numberCells.mpr ⟨hn, t, ht, hnt⟩
    obtain ⟨B, hB, hl⟩ := s2.linked n hmem
    have htB := hl t (mem_unknownsOf.mpr ⟨ht, hnt⟩)
    obtain ⟨ns, n1, n2, n3⟩ := refreshMatrixs_rows h hB
    refine ⟨B, hB, (B.x.map (coeff n), rhsOf g n), ?_, rfl, hclose B hB n hn ⟨t, htB, ht, hnt⟩⟩
    rw [n1]
    exact List.mem_map.mpr ⟨n, n3 n hn ⟨t, htB, ht, hnt⟩, rfl⟩

theorem EqsOf.chunk {g : Board} {S S' : Sys} (h : EqsOf g S) (hc : ChunksOf S S') : EqsOf g S' := by
  refine ⟨fun B' hB' row' hr' => ?_, fun n t hn ht hnt => ?_, fun B' hB' p hp q hq => ?_⟩
  · obtain ⟨B, hB, -, h2⟩ := hc.from_ B' hB'
    obtain ⟨row, hr, hk⟩ := h2 row' hr'
    obtain ⟨n, n1, n2, n3⟩ := h.row B hB row hr
    obtain ⟨k1, k2⟩ := hk _ n2
    exact ⟨n, n1, k1, fun t ht hnt => k2 t (n3 t ht hnt) (coeff_eq_one.mpr hnt)⟩
  · obtain ⟨B, hB, row, hr, h1, h2⟩ := h.all n t hn ht hnt
    obtain ⟨B', hB', row', hr', hk⟩ := hc.all B hB row hr
    obtain ⟨k1, k2⟩ := hk _ h1
    exact ⟨B', hB', row', hr', k1, fun t ht hnt => k2 t (h2 t ht hnt) (coeff_eq_one.mpr hnt)⟩
  · obtain ⟨B, hB, h1, -⟩ := hc.from_ B' hB'
    exact h.conn B hB p (h1 p hp) q (h1 q hq)

/-- the cells linked to a cell of a block are the cells of the block -/
theorem EqsOf.block {g : Board} {S : Sys} (h : EqsOf g S) (hnd : (sysCells S).Nodup) {B : Block} (hB : B ∈ S) {p : Pos}
    (hp : p ∈ B.x) (hcov : IsCovered g p) (q : Pos) : SharesNumbers g p q ↔ q ∈ B.x := by
  refine ⟨fun hs => ?_, fun hq => h.conn B hB p hp q hq⟩
  have key : IsCovered g q ∧ q ∈ B.x := by
    induction hs with
    | refl => exact ⟨hcov, hp⟩
    | @tail x y _ h2 ih =>
      obtain ⟨hy, n, hn, hx', hy'⟩ := h2
      obtain ⟨B1, hB1, row, -, -, h3⟩ := h.all n y hn hy hy'
      have e : B1 = B := block_unique hnd hB1 hB (h3 x ih.1 hx') ih.2
      exact ⟨hy, e ▸ h3 y hy hy'⟩
  exact key.2

/-- other cells with the same equations -/
theorem EqsOf.twin {g : Board} {S : Sys} (h : EqsOf g S) (hnd : (sysCells S).Nodup)
    (hcells : ∀ q, q ∈ sysCells S ↔ Frontier g q) {B : Block} (hB : B ∈ S) {p : Pos} (hp : p ∈ B.x) :
    HasTwin B p ↔ TwinCell g p := by
  have hcov : ∀ q ∈ B.x, IsCovered g q ∧ ∃ n, IsNumber g n ∧ Near n q := fun q hq =>
    (hcells q).mp (mem_sysCells.mpr ⟨B, hB, hq⟩)
  have hBn : B.x.Nodup := by
    have := hnd
    unfold sysCells at this
    rw [List.nodup_flatMap] at this
    exact this.1 B hB
  have hget : ∀ n k, k < B.x.length → (B.x.map (coeff n)).getD k 0 = coeff n (B.x.getD k (0, 0)) := by
    intro n k hk
    rw [List.getD_eq_getElem?_getD, List.getD_eq_getElem?_getD, List.getElem?_map, List.getElem?_eq_getElem hk]
    simp
  have hceq : ∀ n a b, coeff n a = coeff n b ↔ (Near n a ↔ Near n b) := by
    intro n a b
    rw [← coeff_eq_one, ← coeff_eq_one]
    rcases coeff01 n a with h1 | h1 <;> rcases coeff01 n b with h2 | h2 <;> simp [h1, h2]
  have hrow : ∀ n, IsNumber g n → ∀ t ∈ B.x, Near n t → ∃ row ∈ B.rows, row.1 = B.x.map (coeff n) ∧
      ∀ t, IsCovered g t → Near n t → t ∈ B.x := by
    intro n hn t ht hnt
    obtain ⟨B1, hB1, row, h1, h2, h3⟩ := h.all n t hn (hcov t ht).1 hnt
    obtain rfl := block_unique hnd hB1 hB (h3 t (hcov t ht).1 hnt) ht
    exact ⟨row, h1, h2, h3⟩
  constructor
  · rintro ⟨i, j, hi, hj, hij, hpi, hr⟩
    have hqx : B.x.getD j (0, 0) ∈ B.x := getD_mem_of_lt _ hj
    have key : ∀ n, IsNumber g n → (Near n p ∨ Near n (B.x.getD j (0, 0))) → (Near n p ↔ Near n (B.x.getD j (0, 0))) := by
      intro n hn hor
      obtain ⟨row, h1, h2, -⟩ : ∃ row ∈ B.rows, row.1 = B.x.map (coeff n) ∧ ∀ t, IsCovered g t → Near n t → t ∈ B.x := by
        rcases hor with h1 | h1
        · exact hrow n hn p hp h1
        · exact hrow n hn _ hqx h1
      have := hr row h1
      rw [h2, hget n i hi, hget n j hj, hpi, hceq] at this
      exact this
    refine ⟨B.x.getD j (0, 0), ?_, (hcov _ hqx).1, fun n hn => ⟨fun h1 => (key n hn (.inl h1)).mp h1,
      fun h1 => (key n hn (.inr h1)).mpr h1⟩⟩
    intro hc
    rw [← hpi] at hc
    rw [List.getD_eq_getElem?_getD, List.getD_eq_getElem?_getD, List.getElem?_eq_getElem hi, List.getElem?_eq_getElem hj] at hc
    exact hij ((hBn.getElem_inj_iff).mp hc).symm
  · rintro ⟨q, hqp, hq, hn⟩
    obtain ⟨n, h1, h2⟩ := (hcov p hp).2
    obtain ⟨-, -, -, h3⟩ := hrow n h1 p hp h2
    have hqx : q ∈ B.x := h3 q hq ((hn n h1).mp h2)
    obtain ⟨i, hi, hpi⟩ := List.getElem_of_mem hp
    obtain ⟨j, hj, hqj⟩ := List.getElem_of_mem hqx
    have e1 : B.x.getD i (0, 0) = p := by rw [List.getD_eq_getElem?_getD, List.getElem?_eq_getElem hi]; exact hpi
    have e2 : B.x.getD j (0, 0) = q := by rw [List.getD_eq_getElem?_getD, List.getElem?_eq_getElem hj]; exact hqj
    refine ⟨i, j, hi, hj, ?_, e1, fun row hr => ?_⟩
    · rintro rfl
      exact hqp (e2.symm.trans e1)
    · obtain ⟨n', n1, n2, -⟩ := h.row B hB row hr
      rw [n2, hget n' i hi, hget n' j hj, e1, e2, hceq]
      exact hn n' n1

end Ms
