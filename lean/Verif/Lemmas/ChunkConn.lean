import Verif.Lemmas.EasyChunk

/-! The blocks of `chunk_matrix` hang together. -/

namespace Ms
open Spec

/-- two cells occur in one equation of the block -/
def InRow (B : Block) (p q : Pos) : Prop :=
  ∃ row ∈ B.rows, (∃ k, k < B.x.length ∧ B.x.getD k (0, 0) = p ∧ row.1.getD k 0 = 1) ∧
    ∃ k, k < B.x.length ∧ B.x.getD k (0, 0) = q ∧ row.1.getD k 0 = 1

/-- two columns occur in one equation of the block -/
def ColStep (B : Block) (k k' : Nat) : Prop :=
  k < B.x.length ∧ k' < B.x.length ∧ ∃ r, r < B.rows.length ∧ B.hit r k = true ∧ B.hit r k' = true

theorem chunkBfs_reach {B : Block} (h : Block01 B) (R : Nat → Prop) (hR : ∀ k k', R k → ColStep B k k' → R k') (fuel : Nat) :
    ∀ (colBuf : List Nat) (rb cb rb' cb' : List Bool), rb.length = B.rows.length → cb.length = B.x.length →
    (∀ k ∈ colBuf, k < B.x.length ∧ R k) → (∀ k, k < B.x.length → cb.getD k false = true → R k) →
    chunkBfs B fuel colBuf rb cb = some (rb', cb') → ∀ k, k < B.x.length → cb'.getD k false = true → R k := by
  induction fuel with
  | zero => intro _ _ _ _ _ _ _ _ _ hf; simp [chunkBfs] at hf
  | succ fuel ih =>
    intro colBuf rb cb rb' cb' hrl hcl hbuf hcb hrun
    rw [chunkBfs] at hrun
    by_cases hb : colBuf = []
    · rw [if_pos hb] at hrun
      simp only [Option.some.injEq, Prod.mk.injEq] at hrun
      obtain ⟨-, rfl⟩ := hrun
      exact hcb
    · rw [if_neg hb] at hrun
      obtain ⟨r1, r2, r3, -⟩ := markFold_spec (fun cr : Nat × Nat => B.hit cr.2 cr.1) (fun cr => cr.2) B.rows.length
        (colBuf.flatMap fun c => (List.range B.rows.length).map fun r => (c, r)) [] rb hrl (by
          intro q hq
          simp only [List.mem_flatMap, List.mem_map, List.mem_range] at hq
          obtain ⟨_, _, r, hr, rfl⟩ := hq; exact hr) (by simp) (chunkRows B colBuf rb) rfl
      have hrow : ∀ r ∈ (chunkRows B colBuf rb).1, r < B.rows.length ∧ ∃ c ∈ colBuf, B.hit r c = true := by
        intro r hr
        rcases (r3 r).mp hr with h1 | ⟨h1, h2, h3⟩
        · simp at h1
        · refine ⟨h1, ?_⟩
          rcases (r2 r h1).mp h3 with h4 | ⟨q, hq, h4, h5⟩
          · rw [h2] at h4; simp at h4
          · simp only [List.mem_flatMap, List.mem_map, List.mem_range] at hq
            obtain ⟨c, hc, r', hr', rfl⟩ := hq
            exact ⟨c, hc, h5 ▸ h4⟩
      simp only at hrun
      by_cases hr0 : (chunkRows B colBuf rb).1 = []
      · rw [if_pos hr0] at hrun
        simp only [Option.some.injEq, Prod.mk.injEq] at hrun
        obtain ⟨-, rfl⟩ := hrun
        exact hcb
      · rw [if_neg hr0] at hrun
        obtain ⟨c1, c2, c3, -⟩ := markFold_spec (fun rc : Nat × Nat => B.hit rc.1 rc.2) (fun rc => rc.2) B.x.length
          ((chunkRows B colBuf rb).1.flatMap fun r => (List.range (B.rows.getD r ([], 0)).1.length).map fun c => (r, c))
          [] cb hcl (by
            intro q hq
            simp only [List.mem_flatMap, List.mem_map, List.mem_range] at hq
            obtain ⟨r, hr, c, hc, rfl⟩ := hq
            rw [(h _ (getD_rows_mem (hrow r hr).1)).1] at hc; exact hc) (by simp)
          (chunkCols B (chunkRows B colBuf rb).1 cb) rfl
        have hnew : ∀ k, k < B.x.length → (chunkCols B (chunkRows B colBuf rb).1 cb).2.getD k false = true → R k := by
          intro k hk h1
          rcases (c2 k hk).mp h1 with h2 | ⟨q, hq, h2, h3⟩
          · exact hcb k hk h2
          · simp only [List.mem_flatMap, List.mem_map, List.mem_range] at hq
            obtain ⟨r, hr, c', hc', rfl⟩ := hq
            obtain ⟨hr1, c, hc, hh⟩ := hrow r hr
            exact hR c k (hbuf c hc).2 ⟨(hbuf c hc).1, hk, r, hr1, hh, h3 ▸ h2⟩
        refine ih _ _ _ rb' cb' r1 c1 (fun k hk => ?_) hnew hrun
        rcases (c3 k).mp hk with h1 | ⟨h1, -, h2⟩
        · simp at h1
        · exact ⟨h1, hnew k h1 h2⟩

theorem inRow_symm {B : Block} {p q : Pos} (h : InRow B p q) : InRow B q p := by
  obtain ⟨row, hr, h1, h2⟩ := h
  exact ⟨row, hr, h2, h1⟩

theorem inRow_of_col {B : Block} (h : Block01 B) {k k' : Nat} (hs : ColStep B k k') : InRow B (B.x.getD k (0, 0)) (B.x.getD k' (0, 0)) := by
  obtain ⟨h1, h2, r, hr, h3, h4⟩ := hs
  exact ⟨_, getD_rows_mem hr, ⟨k, h1, rfl, ((hit_iff h r k).mp h3).2⟩, k', h2, rfl, ((hit_iff h r k').mp h4).2⟩

theorem inRow_sub {B : Block} {f g : Nat → Bool} (h : Block01 B) {p q : Pos} (hs : InRow (subBlock B f g) p q) : InRow B p q := by
  obtain ⟨row', hr', ⟨k, k1, k2, k3⟩, k', k1', k2', k3'⟩ := hs
  obtain ⟨i, hi, -, rfl⟩ := mem_subBlock hr'
  have hcol : ∀ k, k < (subBlock B f g).x.length → (keepIf g (B.rows.getD i ([], 0)).1).getD k 0 = 1 →
      ∃ j, j < B.x.length ∧ B.x.getD j (0, 0) = (subBlock B f g).x.getD k (0, 0) ∧ (B.rows.getD i ([], 0)).1.getD j 0 = 1 := by
    intro k hk h1
    obtain ⟨j, j1, -, j3⟩ := keepIf_index' (n := B.x.length) (f := g) k _ hk (fun l hl => keepIf_length_eq _ _ _ hl)
    refine ⟨j, j1, (j3 (0, 0) B.x rfl).symm, ?_⟩
    rw [← j3 0 _ (h _ (getD_rows_mem hi)).1]
    exact h1
  obtain ⟨j, j1, j2, j3⟩ := hcol k k1 k3
  obtain ⟨j', j1', j2', j3'⟩ := hcol k' k1' k3'
  exact ⟨_, getD_rows_mem hi, ⟨j, j1, j2.trans k2, j3⟩, j', j1', j2'.trans k2', j3'⟩

theorem chunkLoop_conn (fuel : Nat) : ∀ (B : Block) (S : Sys), Block01 B → RowsHit B → BlockCovered B → B.rows ≠ [] →
    B.x.length < fuel → chunkLoop fuel B = some S → ∀ B' ∈ S, ∀ p ∈ B'.x, ∀ q ∈ B'.x, Relation.ReflTransGen (InRow B) p q := by
  induction fuel with
  | zero => intro B _ _ _ _ _ hf; omega
  | succ fuel ih =>
    intro B T h hh hc hne hf hT
    have hrl : 0 < B.rows.length := List.length_pos_iff.mpr hne
    obtain ⟨k0, hk0⟩ := hh _ (getD_rows_mem hrl)
    have hxl : 0 < B.x.length := by have := hit_lt h hrl hk0; omega
    obtain ⟨row, rest, hrows⟩ : ∃ row rest, B.rows = row :: rest := by
      cases hb : B.rows with
      | nil => exact absurd hb hne
      | cons row rest => exact ⟨row, rest, rfl⟩
    have hrowl : row.1.length = B.x.length := (h row (by simp [hrows])).1
    rw [chunkLoop, hrows] at hT
    simp only at hT
    rw [if_neg (by omega), ← hrows, hrowl] at hT
    have inv0 := bfsInv_init (B := B) hxl
    obtain ⟨rb, cb, e1, e2, e3⟩ := chunkBfs_spec h (B.rows.length + 2) [0] _ _ inv0 (by
      have := List.count_le_length (a := false) (l := List.replicate B.rows.length false)
      simp only [List.length_replicate] at this; omega)
    have hreach := chunkBfs_reach h (fun k => Relation.ReflTransGen (InRow B) (B.x.getD 0 (0, 0)) (B.x.getD k (0, 0)))
      (fun k k' h1 h2 => h1.tail (inRow_of_col h h2)) _ [0] _ _ rb cb (by simp) (by simp) (by
        intro k hk
        rw [List.mem_singleton.mp hk]
        exact ⟨hxl, .refl⟩) (by
        intro k hk h1
        rw [List.getD_eq_getElem?_getD, List.getElem?_set] at h1
        by_cases h0 : 0 = k
        · rw [← h0]
        · rw [if_neg h0, List.getElem?_replicate, if_pos hk] at h1
          simp at h1) e1
    have hcb0 : cb.getD 0 false = true := by
      apply e3 0 hxl
      rw [List.getD_eq_getElem?_getD, List.getElem?_set_self (by simpa using hxl)]; rfl
    have hcl : ClosedSel B (fun i => rb.getD i false) (fun i => cb.getD i false) := by
      intro r c hr hc' h1
      have hhit := (hit_iff h r c).mpr ⟨hr, h1⟩
      simp only
      rcases Bool.eq_false_or_eq_true (cb.getD c false) with hcb | hcb
      · rw [hcb]
        rcases e2.cols c hc' hcb with h2 | h2
        · simp at h2
        · exact h2 r hr hhit
      · rw [hcb]
        by_contra hrb
        rw [Bool.not_eq_false] at hrb
        rw [e2.rows r hr hrb c hc' hhit] at hcb; simp at hcb
    rw [e1] at hT
    simp only [Option.bind_eq_bind, Option.bind_some] at hT
    have hpick : pickBlock B (trueDesc rb) (trueDesc cb) =
        revBlock (subBlock B (fun i => rb.getD i false) (fun i => cb.getD i false)) := by
      rw [pickBlock_eq h e2.rlen e2.clen]
      simp [revBlock, subBlock]
    have hdrop : dropBlock B (trueDesc rb) (trueDesc cb) =
        subBlock B (fun i => !rb.getD i false) (fun i => !cb.getD i false) := dropBlock_eq h e2.rlen e2.clen
    rw [hpick, hdrop] at hT
    have hsymm : ∀ {p q}, Relation.ReflTransGen (InRow B) p q → Relation.ReflTransGen (InRow B) q p := by
      intro p q h1
      induction h1 with
      | refl => exact .refl
      | tail _ h2 ih2 => exact .head (inRow_symm h2) ih2
    have hfirst : ∀ p ∈ (revBlock (subBlock B (fun i => rb.getD i false) (fun i => cb.getD i false))).x,
        Relation.ReflTransGen (InRow B) (B.x.getD 0 (0, 0)) p := by
      intro p hp
      simp only [revBlock, subBlock, List.mem_reverse] at hp
      obtain ⟨k, hk, hg, rfl⟩ := (keepIf_mem (0, 0) _ _ _).mp hp
      exact hreach k hk hg
    generalize hf' : (fun i => rb.getD i false) = f at *
    generalize hg' : (fun i => cb.getD i false) = g at *
    have hg0 : g 0 = true := by rw [← hg']; exact hcb0
    have hf'' : (fun i => !rb.getD i false) = fun i => !f i := by rw [← hf']
    have hg'' : (fun i => !cb.getD i false) = fun i => !g i := by rw [← hg']
    rw [hf'', hg''] at hT
    have hkn := keepIf_length_not (l := B.x) hxl hg0
    by_cases hB' : (subBlock B (fun i => !f i) fun i => !g i).rows = []
    · rw [if_pos hB'] at hT
      obtain rfl := Option.some.inj hT
      intro B' hB1 p hp q hq
      rw [List.mem_singleton.mp hB1] at hp hq
      exact (hsymm (hfirst p hp)).trans (hfirst q hq)
    · rw [if_neg hB'] at hT
      obtain ⟨S, s1, -⟩ := chunkLoop_spec fuel _ (subBlock_01 h _ _) (subBlock_hit h hh hcl.neg) (subBlock_covered h hc hcl.neg)
        hB' (by
          have := hkn.1
          simp only [subBlock]; omega)
      rw [s1] at hT
      obtain rfl := Option.some.inj hT
      intro B' hB1 p hp q hq
      rcases List.mem_cons.mp hB1 with rfl | hB1
      · exact (hsymm (hfirst p hp)).trans (hfirst q hq)
      · have hrel := ih _ S (subBlock_01 h _ _) (subBlock_hit h hh hcl.neg) (subBlock_covered h hc hcl.neg)
          hB' (by
            have := hkn.1
            simp only [subBlock]; omega) s1 B' hB1 p hp q hq
        clear hq
        induction hrel with
        | refl => exact .refl
        | tail _ h2 ih2 => exact .tail ih2 (inRow_sub h h2)

theorem chunkMapM_conn : ∀ (S : Sys) (L : List Sys), (∀ B ∈ S, Block01 B ∧ RowsHit B ∧ BlockCovered B ∧ B.rows ≠ []) →
    S.mapM chunkMatrix = some L → ∀ B' ∈ L.flatten, ∃ B ∈ S, ∀ p ∈ B'.x, ∀ q ∈ B'.x, Relation.ReflTransGen (InRow B) p q := by
  intro S
  induction S with
  | nil =>
    intro L _ h
    rw [List.mapM_nil] at h
    obtain rfl := Option.some.inj h
    simp
  | cons B S ih =>
    intro L h hL
    obtain ⟨h1, h2, h3, h4⟩ := h B (by simp)
    obtain ⟨T, t1, -⟩ := chunkMatrix_spec h1 h2 h3 h4
    obtain ⟨L', l1, -⟩ := chunkMapM_spec S (fun B hB => h B (by simp [hB]))
    rw [List.mapM_cons, t1, l1] at hL
    obtain rfl := Option.some.inj hL
    intro B' hB'
    rw [List.flatten_cons, List.mem_append] at hB'
    rcases hB' with hB' | hB'
    · exact ⟨B, by simp, chunkLoop_conn _ B T h1 h2 h3 h4 (by omega) t1 B' hB'⟩
    · obtain ⟨B1, a1, a2⟩ := ih L' (fun B hB => h B (by simp [hB])) l1 B' hB'
      exact ⟨B1, by simp [a1], a2⟩

theorem chunkMatrixes_conn {S S' : Sys} (h : ∀ B ∈ S, Block01 B ∧ RowsHit B ∧ BlockCovered B ∧ B.rows ≠ [])
    (hs : chunkMatrixes S = some S') : ∀ B' ∈ S', ∃ B ∈ S, ∀ p ∈ B'.x, ∀ q ∈ B'.x, Relation.ReflTransGen (InRow B) p q := by
  obtain ⟨L, l1, -⟩ := chunkMapM_spec S.reverse (fun B hB => h B (by simpa using hB))
  rw [chunkMatrixes, l1] at hs
  obtain rfl := Option.some.inj hs
  intro B' hB'
  obtain ⟨B, a1, a2⟩ := chunkMapM_conn S.reverse L (fun B hB => h B (by simpa using hB)) l1 B' hB'
  exact ⟨B, by simpa using a1, a2⟩

end Ms
