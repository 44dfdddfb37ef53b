import Verif.Lemmas.Chain

/-! What the solvers touch on arbitrary (also contradictory) systems. -/

namespace Ms
open Spec

/-- `g'` differs from `g` at most by marks on cells of `X`. -/
def TouchedOnly (X : List Pos) (g g' : Board) : Prop :=
  ∀ p : Pos, g'.get p.1 p.2 = g.get p.1 p.2 ∨ (p ∈ X ∧ (g'.get p.1 p.2 = 11 ∨ g'.get p.1 p.2 = 12))

theorem TouchedOnly.refl (X : List Pos) (g : Board) : TouchedOnly X g g := fun _ => .inl rfl

theorem TouchedOnly.trans {X Y : List Pos} {g1 g2 g3 : Board} (h : TouchedOnly X g1 g2) (h' : TouchedOnly Y g2 g3)
    (hs : ∀ p ∈ Y, p ∈ X) : TouchedOnly X g1 g3 := by
  intro p
  rcases h' p with e | ⟨e1, e2⟩
  · rw [e]; exact h p
  · exact .inr ⟨hs p e1, e2⟩

theorem board_get_set {g : Board} {i j : Nat} {v : Int} {a b : Nat} :
    (g.set i j v).get a b = g.get a b ∨ ((a, b) = (i, j) ∧ (g.set i j v).get a b = v) := by
  unfold Board.set Board.get
  by_cases ha : a = i
  · subst ha
    by_cases hl : a < g.length
    · by_cases hb : b = j
      · subst hb
        by_cases hl2 : b < g[a].length
        · right; simp [hl, hl2]
        · left; simp [hl, hl2]
      · left; simp [hl, List.getElem?_set_ne (Ne.symm hb)]
    · left; simp [hl]
  · left; simp [List.getElem?_modify_ne _ _ (Ne.symm ha)]

theorem touched_push {X : List Pos} (m : Marks) {p : Pos} (hp : p ∈ X) (b : Bool) : TouchedOnly X m.board (m.push p b).board := by
  intro q
  cases b
  · rcases board_get_set (g := m.board) (i := p.1) (j := p.2) (v := 12) (a := q.1) (b := q.2) with h | ⟨h1, h2⟩
    · exact .inl h
    · have : q = p := h1
      exact .inr ⟨this ▸ hp, .inr h2⟩
  · rcases board_get_set (g := m.board) (i := p.1) (j := p.2) (v := 11) (a := q.1) (b := q.2) with h | ⟨h1, h2⟩
    · exact .inl h
    · have : q = p := h1
      exact .inr ⟨this ▸ hp, .inl h2⟩

theorem touched_applyMarks : ∀ (l : List (Pos × Bool)) (g : Board), TouchedOnly (l.map (·.1)) g (applyMarks g l) := by
  intro l
  induction l with
  | nil => intro g; exact .refl _ g
  | cons q l ih =>
    intro g
    have h1 : TouchedOnly ((q :: l).map (·.1)) g (g.set q.1.1 q.1.2 (if q.2 then 11 else 12)) := by
      intro p
      rcases board_get_set (g := g) (i := q.1.1) (j := q.1.2) (v := if q.2 then 11 else 12) (a := p.1) (b := p.2) with h | ⟨h, h2⟩
      · exact .inl h
      · have : p = q.1 := h
        refine .inr ⟨by simp [this], ?_⟩
        rw [h2]
        cases q.2 <;> simp
    exact h1.trans (ih _) fun p hp => by simp at hp ⊢; tauto

theorem touched_pushes {X : List Pos} (f : Nat → Pos) (b : Bool) : ∀ (ks : List Nat) (m : Marks), (∀ k ∈ ks, f k ∈ X) →
    TouchedOnly X m.board (ks.foldl (fun m k => m.push (f k) b) m).board := by
  intro ks
  induction ks with
  | nil => intro m _; exact .refl _ _
  | cons k ks ih =>
    intro m h
    rw [List.foldl_cons]
    exact (touched_push m (h k (by simp)) b).trans (ih _ fun k hk => h k (by simp [hk])) fun _ hp => hp

theorem mem_eraseIdxs {α : Type} : ∀ (ks : List Nat) (l : List α) {a : α}, a ∈ ks.foldl (fun l k => l.eraseIdx k) l → a ∈ l := by
  intro ks
  induction ks with
  | nil => intro l a h; exact h
  | cons k ks ih =>
    intro l a h
    rw [List.foldl_cons] at h
    exact List.mem_of_mem_eraseIdx (ih _ h)

/-- `minusApply` keeps the shape of the block. -/
theorem minusApply_shape {B : Block} (h : Block01 B) (m : Marks) (mi sa : List Nat) :
    Block01 (minusApply B m (sortDedup B.x.length mi) (sortDedup B.x.length sa)).1 ∧
      (BlockCovered B → BlockCovered (minusApply B m (sortDedup B.x.length mi) (sortDedup B.x.length sa)).1) ∧
      (∀ p ∈ (minusApply B m (sortDedup B.x.length mi) (sortDedup B.x.length sa)).1.x, p ∈ B.x) ∧
      TouchedOnly B.x m.board (minusApply B m (sortDedup B.x.length mi) (sortDedup B.x.length sa)).2.board := by
  set s : Nat → Bool := fun k => decide (k ∈ sa) with hs
  set g : Nat → Bool := fun k => decide (k ∈ mi) with hg
  set f : Nat → Bool := fun k => s k || g k with hfdef
  have hSD : sortDedup B.x.length mi = (List.range B.x.length).filter g := rfl
  have hSS : sortDedup B.x.length sa = (List.range B.x.length).filter s := rfl
  have hdel : ((List.range B.x.length).filter fun k =>
      decide (k ∈ sortDedup B.x.length sa ∨ k ∈ sortDedup B.x.length mi)) = (List.range B.x.length).filter f := by
    apply List.filter_congr
    intro k hk
    have hk' := List.mem_range.mp hk
    simp only [hfdef, hs, hg, sortDedup, List.mem_filter, List.mem_range, hk', true_and, decide_eq_true_eq]
    rw [Bool.decide_or]
  have hB' : (minusApply B m (sortDedup B.x.length mi) (sortDedup B.x.length sa)).1 =
      ⟨B.rows.map fun r => (keepIf (fun i => !f i) r.1, r.2 - (keepIf g r.1).sum), keepIf (fun i => !f i) B.x⟩ := by
    unfold minusApply
    simp only
    rw [rows_fold_mines, hdel, foldl_eraseIdx_desc, List.map_map]
    congr 1
    apply List.map_congr_left
    intro r hr
    simp only [Function.comp]
    rw [hSD, sum_map_getD_filter _ _ _ (h r hr).1]
    congr 1
    rw [← (h r hr).1, foldl_eraseIdx_desc]
  refine ⟨?_, ?_, ?_, ?_⟩
  · rw [hB']
    intro r' hr'
    simp only [List.mem_map] at hr'
    obtain ⟨r, hr, rfl⟩ := hr'
    refine ⟨keepIf_length_eq _ _ _ (h r hr).1, fun c hc => ?_⟩
    obtain ⟨j, _, _, rfl⟩ := (keepIf_mem 0 _ _ _).mp hc
    exact getD_mem01 (h r hr).2 j
  · intro hc
    rw [hB']
    intro j hj
    obtain ⟨k, h1, h2, h3⟩ := keepIf_index' (n := B.x.length) (f := fun i => !f i) j _ hj
      (fun l hl => keepIf_length_eq _ _ _ hl)
    obtain ⟨r, hr, h4⟩ := hc k h1
    refine ⟨_, List.mem_map.mpr ⟨r, hr, rfl⟩, ?_⟩
    simp only
    rw [h3 0 _ (h r hr).1]; exact h4
  · intro p hp
    exact mem_eraseIdxs _ _ hp
  · have hin : ∀ l : List Nat, ∀ k ∈ sortDedup B.x.length l, B.x.getD k (0, 0) ∈ B.x := by
      intro l k hk
      unfold sortDedup at hk
      exact getD_mem_of_lt _ (List.mem_range.mp (List.mem_filter.mp hk).1)
    exact (touched_pushes _ false _ m (hin sa)).trans (touched_pushes _ true _ _ (hin mi)) fun _ hp => hp

theorem minusSweep_shape (m : Marks) : ∀ (S : Sys), (∀ B ∈ S, Block01 B) → (∀ B ∈ S, BlockCovered B) →
    (∀ B ∈ (minusSweep S m).1, Block01 B) ∧ (∀ B ∈ (minusSweep S m).1, BlockCovered B) ∧
      (∀ p ∈ sysCells (minusSweep S m).1, p ∈ sysCells S) ∧ TouchedOnly (sysCells S) m.board (minusSweep S m).2.board := by
  intro S
  induction S with
  | nil => intro _ _; exact ⟨fun B hB => by simp [minusSweep] at hB, fun B hB => by simp [minusSweep] at hB, fun p hp => hp, .refl _ _⟩
  | cons B S ih =>
    intro h hc
    obtain ⟨a1, a2, a3, a4⟩ := ih (fun B hB => h B (by simp [hB])) (fun B hB => hc B (by simp [hB]))
    have hst : minusSweep (B :: S) m =
        (if ¬ B.rows.length ≤ 1 ∧ (minusBlock B (minusSweep S m).2).1.x = [] then (minusSweep S m).1
          else (minusBlock B (minusSweep S m).2).1 :: (minusSweep S m).1,
         (minusBlock B (minusSweep S m).2).2) := rfl
    have hb : Block01 (minusBlock B (minusSweep S m).2).1 ∧ BlockCovered (minusBlock B (minusSweep S m).2).1 ∧
        (∀ p ∈ (minusBlock B (minusSweep S m).2).1.x, p ∈ B.x) ∧
        TouchedOnly B.x (minusSweep S m).2.board (minusBlock B (minusSweep S m).2).2.board := by
      unfold minusBlock
      split
      · exact ⟨h B (by simp), hc B (by simp), fun _ hp => hp, .refl _ _⟩
      · obtain ⟨b1, b2, b3, b4⟩ := minusApply_shape (h B (by simp)) (minusSweep S m).2 (minusPairs B).1 (minusPairs B).2
        exact ⟨b1, b2 (hc B (by simp)), b3, b4⟩
    obtain ⟨b1, b2, b3, b4⟩ := hb
    have hcons : sysCells (B :: S) = B.x ++ sysCells S := by simp [sysCells]
    have ht : TouchedOnly (sysCells (B :: S)) m.board (minusBlock B (minusSweep S m).2).2.board := by
      have a4' : TouchedOnly (sysCells (B :: S)) m.board (minusSweep S m).2.board := by
        intro p
        rcases a4 p with e | ⟨e1, e2⟩
        · exact .inl e
        · exact .inr ⟨by rw [hcons]; simp [e1], e2⟩
      exact a4'.trans b4 fun p hp => by rw [hcons]; simp [hp]
    rw [hst, hcons]
    rw [hcons] at ht
    simp only
    split
    · exact ⟨a1, a2, fun p hp => by simp [a3 p hp], ht⟩
    · refine ⟨?_, ?_, ?_, ht⟩
      · intro B' hB'
        rcases List.mem_cons.mp hB' with rfl | hB'
        · exact b1
        · exact a1 B' hB'
      · intro B' hB'
        rcases List.mem_cons.mp hB' with rfl | hB'
        · exact b2
        · exact a2 B' hB'
      · intro p hp
        rw [mem_sysCells] at hp
        obtain ⟨B', hB', hp⟩ := hp
        rcases List.mem_cons.mp hB' with rfl | hB'
        · simp [b3 p hp]
        · simp [a3 p (mem_sysCells.mpr ⟨B', hB', hp⟩)]

theorem solveDirect_shape {S : Sys} {g : Board} (h : ∀ B ∈ S, Block01 B) (hc : ∀ B ∈ S, BlockCovered B)
    {out : SolveOut} (ho : solveDirect S g = some out) :
    (∀ B ∈ out.sys, Block01 B) ∧ (∀ B ∈ out.sys, BlockCovered B) ∧ (∀ p ∈ sysCells out.sys, p ∈ sysCells S) ∧
      TouchedOnly (sysCells S) g out.board := by
  obtain ⟨m, l, h1, h2, h3, -⟩ := solveDirect_ok h hc ho
  refine ⟨h3.rect, h3.covered, fun p hp => h3.perm.mem_iff.mpr (by simp [hp]), ?_⟩
  rw [h1, h2.board]
  exact (TouchedOnly.refl _ _).trans (touched_applyMarks l g) fun p hp => h3.perm.mem_iff.mpr (List.mem_append.mpr (.inl hp))

theorem solveMinus_shape {S : Sys} {g : Board} (h : ∀ B ∈ S, Block01 B) (hc : ∀ B ∈ S, BlockCovered B)
    {out : SolveOut} (ho : solveMinus S g = some out) : TouchedOnly (sysCells S) g out.board := by
  obtain ⟨a1, a2, a3, a4⟩ := minusSweep_shape ⟨[], [], g⟩ S h hc
  unfold solveMinus at ho
  cases hd : solveDirect (minusSweep S ⟨[], [], g⟩).1 (minusSweep S ⟨[], [], g⟩).2.board with
  | none => simp [hd] at ho
  | some d =>
    obtain ⟨b1, b2, b3, b4⟩ := solveDirect_shape a1 a2 hd
    have ht := a4.trans b4 a3
    simp only [hd, Option.bind_eq_bind, Option.bind_some] at ho
    rcases hres : d.res with e | ⟨n, i⟩
    · rw [hres] at ho
      obtain rfl := Option.some.inj ho
      exact ht
    · rw [hres] at ho
      simp only at ho
      cases hm : chunkMatrixes d.sys with
      | none => simp [hm] at ho
      | some S' =>
        rw [hm] at ho
        obtain rfl := Option.some.inj ho
        exact ht

/-- On every board `mark_board` only writes marks on covered cells next to numbers. -/
theorem markBoard_touches {g g' : Board} {res : Except Nat Unit} (h : markBoard g = some (res, g')) (p : Pos) :
    g'.get p.1 p.2 = g.get p.1 p.2 ∨ (Frontier g p ∧ (g'.get p.1 p.2 = 11 ∨ g'.get p.1 p.2 = 12)) := by
  obtain ⟨S, h1, h2, h3, -⟩ := Properties.refresh_matrixs_exact g
  unfold markBoard at h
  simp only [h1, Option.bind_eq_bind, Option.bind_some] at h
  cases hd : solveDirect S g with
  | none => simp [hd] at h
  | some d =>
    obtain ⟨b1, b2, b3, b4⟩ := solveDirect_shape h2.rect h2.covered hd
    have fin : ∀ g'', TouchedOnly (sysCells S) g g'' → (g''.get p.1 p.2 = g.get p.1 p.2 ∨
        (Frontier g p ∧ (g''.get p.1 p.2 = 11 ∨ g''.get p.1 p.2 = 12))) := by
      intro g'' ht
      rcases ht p with e | ⟨e1, e2⟩
      · exact .inl e
      · exact .inr ⟨(h3 p).mp e1, e2⟩
    simp only [hd, Option.bind_some] at h
    rcases hres : d.res with e | ⟨n, i⟩
    · rw [hres] at h
      simp only [pure, Option.some.injEq, Prod.mk.injEq] at h
      obtain ⟨-, rfl⟩ := h
      exact fin _ b4
    · rw [hres] at h
      simp only at h
      split at h
      · simp only [pure, Option.some.injEq, Prod.mk.injEq] at h
        obtain ⟨-, rfl⟩ := h
        exact fin _ b4
      · cases hm : solveMinus d.sys d.board with
        | none => simp [hm] at h
        | some o2 =>
          have ht := b4.trans (solveMinus_shape b1 b2 hm) b3
          simp only [hm, Option.bind_some] at h
          split at h
          · simp only [pure, Option.some.injEq, Prod.mk.injEq] at h
            obtain ⟨-, rfl⟩ := h
            exact fin _ ht
          · simp only [pure, Option.some.injEq, Prod.mk.injEq] at h
            obtain ⟨-, rfl⟩ := h
            exact fin _ ht

end Ms
