import Verif.Lemmas.RoundsPair

/-! `solve_direct` and `solve_minus` on a system, exactly. -/

namespace Ms
open Spec

variable {E : Set (Set Pos)} {σ : Pos → Bool} {K : Set Pos} {S S' : Sys}

/-- `S` is what is left of the equations `E` when the cells `K` are known -/
structure Left (E : Set (Set Pos)) (σ : Pos → Bool) (K : Set Pos) (S : Sys) : Prop where
  rect : ∀ B ∈ S, Block01 B
  covered : ∀ B ∈ S, BlockCovered B
  sat : Solves σ S
  nodup : (sysCells S).Nodup
  cells : ∀ p, p ∈ sysCells S ↔ p ∉ K ∧ ∃ e ∈ E, p ∈ e
  row : ∀ B ∈ S, ∀ row ∈ B.rows, ∃ e ∈ E, row.1 = B.x.map (ind e) ∧ ∀ t ∈ e, t ∈ K ∨ t ∈ B.x
  all : ∀ e ∈ E, ∀ t ∈ e, t ∉ K → ∃ B ∈ S, HasRow B e ∧ ∀ t ∈ e, t ∈ K ∨ t ∈ B.x

theorem forall₂_left {α : Type} {R : α → α → Prop} {l l' : List α} (h : List.Forall₂ R l l') : ∀ b ∈ l', ∃ a ∈ l, R a b := by
  induction h with
  | nil => simp
  | cons h1 _ ih =>
    intro b hb
    rcases List.mem_cons.mp hb with rfl | hb
    · exact ⟨_, by simp, h1⟩
    · obtain ⟨a, h2, h3⟩ := ih b hb
      exact ⟨a, by simp [h2], h3⟩

theorem forall₂_right {α : Type} {R : α → α → Prop} {l l' : List α} (h : List.Forall₂ R l l') : ∀ a ∈ l, ∃ b ∈ l', R a b := by
  induction h with
  | nil => simp
  | cons h1 _ ih =>
    intro b hb
    rcases List.mem_cons.mp hb with rfl | hb
    · exact ⟨_, by simp, h1⟩
    · obtain ⟨a, h2, h3⟩ := ih b hb
      exact ⟨a, by simp [h2], h3⟩

theorem forall₂_perm {R : Block → Block → Prop} (hR : ∀ B B', R B B' → ∃ L, B.x.Perm (L ++ B'.x)) (h : List.Forall₂ R S S') :
    ∃ L, (sysCells S).Perm (L ++ sysCells S') := by
  induction h with
  | nil => exact ⟨[], by simp [sysCells]⟩
  | @cons B B' S S' h1 _ ih =>
    obtain ⟨L, h2⟩ := ih
    obtain ⟨L', h3⟩ := hR B B' h1
    refine ⟨L' ++ L, ?_⟩
    simp only [sysCells, List.flatMap_cons] at h2 ⊢
    refine (h3.append h2).trans ?_
    rw [List.append_assoc, List.append_assoc]
    exact List.Perm.append_left _ (List.perm_append_comm_assoc _ _ _)

theorem Left.step {K' : Set Pos} (h : Left E σ K S) (hK : K ⊆ K') (hE : ∀ p ∈ K', p ∈ K ∨ ∃ e ∈ E, p ∈ e)
    (hF : List.Forall₂ (BStep (· ∈ K')) S S') : Left E σ K' S' := by
  have hstep : ∀ B' ∈ S', ∃ B ∈ S, BStep (· ∈ K') B B' := forall₂_left hF
  have hstep' : ∀ B ∈ S, ∃ B' ∈ S', BStep (· ∈ K') B B' := forall₂_right hF
  refine ⟨fun B' hB' => ?_, fun B' hB' => ?_, fun B' hB' => ?_, ?_, fun p => ⟨fun hp => ?_, fun hp => ?_⟩, fun B' hB' row' hr' => ?_,
    fun e he t hte htK => ?_⟩
  · obtain ⟨B, hB, ⟨l, d⟩, -⟩ := hstep B' hB'
    exact d.rect
  · obtain ⟨B, hB, ⟨l, d⟩, -⟩ := hstep B' hB'
    exact d.covered (h.covered B hB)
  · obtain ⟨B, hB, ⟨l, d⟩, -⟩ := hstep B' hB'
    exact ((d.equiv σ).mp (h.sat B hB)).1
  · obtain ⟨L, hL⟩ := forall₂_perm (fun B B' hs => by obtain ⟨l, d⟩ := hs.ded; exact ⟨_, d.perm⟩) hF
    have := hL.nodup_iff.mp h.nodup
    rw [List.nodup_append] at this
    exact this.2.1
  · obtain ⟨B', hB', hp⟩ := mem_sysCells.mp hp
    obtain ⟨B, hB, hs⟩ := hstep B' hB'
    obtain ⟨l, d⟩ := hs.ded
    exact ⟨hs.stay p hp, ((h.cells p).mp (mem_sysCells.mpr ⟨B, hB, dedB_sub d p hp⟩)).2⟩
  · obtain ⟨B, hB, hpB⟩ := mem_sysCells.mp ((h.cells p).mpr ⟨fun hk => hp.1 (hK hk), hp.2⟩)
    obtain ⟨B', hB', hs⟩ := hstep' B hB
    refine mem_sysCells.mpr ⟨B', hB', ?_⟩
    by_contra hn
    exact hp.1 (hs.gone p hpB hn)
  · obtain ⟨B, hB, hs⟩ := hstep B' hB'
    obtain ⟨row, r1, r2⟩ := hs.inh row' hr'
    obtain ⟨e, e1, e2, e3⟩ := h.row B hB row r1
    refine ⟨e, e1, r2 _ e2, fun t ht => ?_⟩
    rcases e3 t ht with h1 | h1
    · exact .inl (hK h1)
    · by_cases h2 : t ∈ B'.x
      · exact .inr h2
      · exact .inl (hs.gone t h1 h2)
  · obtain ⟨B, hB, b1, b2⟩ := h.all e he t hte fun hk => htK (hK hk)
    obtain ⟨B', hB', hs⟩ := hstep' B hB
    have hin : ∀ t ∈ e, t ∈ K' ∨ t ∈ B'.x := by
      intro t ht
      rcases b2 t ht with h1 | h1
      · exact .inl (hK h1)
      · by_cases h2 : t ∈ B'.x
        · exact .inr h2
        · exact .inl (hs.gone t h1 h2)
    exact ⟨B', hB', hs.surv e b1 ⟨t, (hin t hte).resolve_left htK, hte⟩, hin⟩

/-- blocks without cells can go -/
theorem Left.sub (h : Left E σ K S) (hs : S'.Sublist S) (hd : ∀ B ∈ S, B ∈ S' ∨ B.x = []) : Left E σ K S' := by
  refine ⟨fun B hB => h.rect B (hs.subset hB), fun B hB => h.covered B (hs.subset hB), fun B hB => h.sat B (hs.subset hB), ?_,
    fun p => ?_, fun B hB => h.row B (hs.subset hB), fun e he t hte htK => ?_⟩
  · exact List.Nodup.sublist (by unfold sysCells; exact List.Sublist.flatMap hs _) h.nodup
  · rw [← h.cells]
    constructor
    · intro hp
      obtain ⟨B, hB, h1⟩ := mem_sysCells.mp hp
      exact mem_sysCells.mpr ⟨B, hs.subset hB, h1⟩
    · intro hp
      obtain ⟨B, hB, h1⟩ := mem_sysCells.mp hp
      rcases hd B hB with h2 | h2
      · exact mem_sysCells.mpr ⟨B, h2, h1⟩
      · rw [h2] at h1; simp at h1
  · obtain ⟨B, hB, b1, b2⟩ := h.all e he t hte htK
    rcases hd B hB with h2 | h2
    · exact ⟨B, h2, b1, b2⟩
    · have := (b2 t hte).resolve_left htK
      rw [h2] at this; simp at this

theorem Left.chunk (h : Left E σ K S) (hc : ChunksOf S S') (hs : SplitS S S') : Left E σ K S' := by
  refine ⟨hs.rect, hs.covered, (hs.equiv σ).mp h.sat, hs.perm.nodup_iff.mpr h.nodup, fun p => by rw [← h.cells, hs.perm.mem_iff],
    fun B' hB' row' hr' => ?_, fun e he t hte htK => ?_⟩
  · obtain ⟨B, hB, -, h2⟩ := hc.from_ B' hB'
    obtain ⟨row, hr, hk⟩ := h2 row' hr'
    obtain ⟨e, e1, e2, e3⟩ := h.row B hB row hr
    obtain ⟨k1, k2⟩ := hk _ e2
    exact ⟨e, e1, k1, fun t ht => (e3 t ht).imp id fun h1 => k2 t h1 (ind_eq_one.mpr ht)⟩
  · obtain ⟨B, hB, ⟨row, hr, b1⟩, b2⟩ := h.all e he t hte htK
    obtain ⟨B', hB', row', hr', hk⟩ := hc.all B hB row hr
    obtain ⟨k1, k2⟩ := hk _ b1
    exact ⟨B', hB', ⟨row', hr', k1⟩, fun t ht => (b2 t ht).imp id fun h1 => k2 t h1 (ind_eq_one.mpr ht)⟩

/-- the equations of a block -/
def QOf (E : Set (Set Pos)) (K : Set Pos) (B : Block) (e : Set Pos) : Prop := e ∈ E ∧ HasRow B e ∧ ∀ t ∈ e, t ∈ K ∨ t ∈ B.x

theorem Left.named (h : Left E σ K S) {B : Block} (hB : B ∈ S) : Named (QOf E K B) B := by
  intro row hr
  obtain ⟨e, e1, e2, e3⟩ := h.row B hB row hr
  exact ⟨e, ⟨e1, ⟨row, hr, e2⟩, e3⟩, e2⟩

theorem Left.block (h : Left E σ K S) {B : Block} (hB : B ∈ S) {p : Pos} (hp : p ∈ B.x) {e : Set Pos} (he : e ∈ E) (hpe : p ∈ e) :
    QOf E K B e := by
  have hK : p ∉ K := ((h.cells p).mp (mem_sysCells.mpr ⟨B, hB, hp⟩)).1
  obtain ⟨B1, hB1, b1, b2⟩ := h.all e he p hpe hK
  obtain rfl := block_unique h.nodup hB1 hB ((b2 p hpe).resolve_left hK) hp
  exact ⟨he, b1, b2⟩

theorem Left.unknown (h : Left E σ K S) {B : Block} (hB : B ∈ S) {p : Pos} (hp : p ∈ B.x) : p ∉ K :=
  ((h.cells p).mp (mem_sysCells.mpr ⟨B, hB, hp⟩)).1

theorem Left.single_iff (h : Left E σ K S) {B : Block} (hB : B ∈ S) (v : Bool) {p : Pos} (hp : p ∈ B.x) :
    OneSays σ v (QOf E K B) B.x p ↔ p ∈ single σ E v K := by
  constructor
  · rintro ⟨e, ⟨e1, e2, e3⟩, h1, h2⟩
    exact .inr ⟨e, e1, h1, fun t ht => (e3 t ht).imp id fun h3 => h2 t h3 ht⟩
  · rintro (h1 | ⟨e, e1, h1, h2⟩)
    · exact absurd h1 (h.unknown hB hp)
    · exact ⟨e, h.block hB hp e1 h1, h1, fun s hs hse => (h2 s hse).resolve_left (h.unknown hB hs)⟩

theorem Left.paired_iff (h : Left E σ K S) {B : Block} (hB : B ∈ S) {p : Pos} (hp : p ∈ B.x) :
    PairSays σ (QOf E K B) B.x p ↔ p ∈ paired σ E K := by
  constructor
  · rintro ⟨e, e', ⟨e1, e2, e3⟩, ⟨e1', e2', e3'⟩, ⟨u, hu, hu1, hu2⟩, ⟨h1, h2⟩, hx⟩
    exact .inr ⟨e, e1, e', e1', ⟨u, hu1, hu2, h.unknown hB hu⟩, fun t ht ht' => (e3 t ht).imp id fun h3 => h1 t h3 ht ht',
      fun t ht ht' => (e3' t ht).imp id fun h3 => h2 t h3 ht ht', hx⟩
  · rintro (h1 | ⟨e, e1, e', e1', ⟨u, hu1, hu2, hu3⟩, h1, h2, hx⟩)
    · exact absurd h1 (h.unknown hB hp)
    · have hu : u ∈ B.x := by
        rcases hx with ⟨x1, -⟩ | ⟨x1, -⟩
        · exact ((h.block hB hp e1 x1).2.2 u hu1).resolve_left hu3
        · exact ((h.block hB hp e1' x1).2.2 u hu2).resolve_left hu3
      exact ⟨e, e', h.block hB hu e1 hu1, h.block hB hu e1' hu2, ⟨u, hu, hu1, hu2⟩,
        ⟨fun t ht a b => (h1 t a b).resolve_left (h.unknown hB ht), fun t ht a b => (h2 t a b).resolve_left (h.unknown hB ht)⟩, hx⟩

theorem BStep.congr {P P' : Pos → Prop} {B B' : Block} (h : BStep P B B') (hP : ∀ p ∈ B.x, P p ↔ P' p) : BStep P' B B' := by
  obtain ⟨l, d⟩ := h.ded
  exact ⟨⟨l, d⟩, h.inh, h.surv, fun p h1 h2 => (hP p h1).mp (h.gone p h1 h2), fun p h1 h2 =>
    h.stay p h1 ((hP p (dedB_sub d p h1)).mpr h2)⟩

theorem forall₂_of_mem {α : Type} {R R' : α → α → Prop} {l l' : List α} (h : List.Forall₂ R l l') (hR : ∀ a ∈ l, ∀ b, R a b → R' a b) :
    List.Forall₂ R' l l' := by
  induction h with
  | nil => exact .nil
  | cons h1 _ ih => exact .cons (hR _ (by simp) _ h1) (ih fun a ha => hR a (by simp [ha]))

theorem single_sub (v : Bool) : K ⊆ single σ E v K := fun _ h => .inl h
theorem paired_sub : K ⊆ paired σ E K := fun _ h => .inl h

theorem Left.pass (h : Left E σ K S) (v : Bool) (hF : List.Forall₂ (fun B B' => ∃ m : Marks,
    B' = ((List.range B.rows.length).reverse.foldl (directRow v) (B, m)).1) S S') : Left E σ (single σ E v K) S' := by
  refine h.step (single_sub v) (fun p hp => hp.imp id fun ⟨e, e1, e2, _⟩ => ⟨e, e1, e2⟩) (forall₂_of_mem hF ?_)
  rintro B hB B' ⟨m, rfl⟩
  exact (directRows_step v m (h.rect B hB) (h.named hB) (fun e he => he.2.1) (h.sat B hB)).congr fun p hp => h.single_iff hB v hp

theorem Left.pair (h : Left E σ K S) (hF : List.Forall₂ (fun B B' => ∃ m : Marks, B' = (minusBlock B m).1) S S') :
    Left E σ (paired σ E K) S' := by
  refine h.step paired_sub (fun p hp => hp.imp id ?_) (forall₂_of_mem hF ?_)
  · rintro ⟨e, e1, e', e1', -, -, -, hx⟩
    rcases hx with ⟨x1, -⟩ | ⟨x1, -⟩
    · exact ⟨e, e1, x1⟩
    · exact ⟨e', e1', x1⟩
  · rintro B hB B' ⟨m, rfl⟩
    have hnd : B.x.Nodup := by
      have := h.nodup
      unfold sysCells at this
      rw [List.nodup_flatMap] at this
      exact this.1 B hB
    exact (minusBlock_step m (h.rect B hB) hnd (h.named hB) (fun e he => he.2.1) (h.sat B hB)).congr fun p hp => h.paired_iff hB hp

theorem directSweep_passes (m : Marks) : ∀ S : Sys, ∃ S1 S2, List.Forall₂ (fun B B' => ∃ m : Marks,
      B' = ((List.range B.rows.length).reverse.foldl (directRow true) (B, m)).1) S S1 ∧
    List.Forall₂ (fun B B' => ∃ m : Marks, B' = ((List.range B.rows.length).reverse.foldl (directRow false) (B, m)).1) S1 S2 ∧
    (directSweep S m).1 = S2.filter fun B => decide (B.rows ≠ []) := by
  intro S
  induction S with
  | nil => exact ⟨[], [], .nil, .nil, rfl⟩
  | cons B S ih =>
    obtain ⟨S1, S2, h1, h2, h3⟩ := ih
    have hst : directSweep (B :: S) m =
        (if (directBlock B (directSweep S m).2).1.rows = [] then (directSweep S m).1
          else (directBlock B (directSweep S m).2).1 :: (directSweep S m).1,
         (directBlock B (directSweep S m).2).2) := rfl
    refine ⟨_ :: S1, (directBlock B (directSweep S m).2).1 :: S2, .cons ⟨(directSweep S m).2, rfl⟩ h1, .cons ⟨_, rfl⟩ h2, ?_⟩
    rw [hst]
    simp only [List.filter_cons]
    by_cases hr : (directBlock B (directSweep S m).2).1.rows = []
    · simp [hr, h3]
    · simp [hr, h3]

theorem minusSweep_pass (m : Marks) : ∀ S : Sys, ∃ S1, List.Forall₂ (fun B B' => ∃ m : Marks, B' = (minusBlock B m).1) S S1 ∧
    (minusSweep S m).1.Sublist S1 ∧ ∀ B ∈ S1, B ∈ (minusSweep S m).1 ∨ B.x = [] := by
  intro S
  induction S with
  | nil => exact ⟨[], .nil, .slnil, by simp⟩
  | cons B S ih =>
    obtain ⟨S1, h1, h2, h3⟩ := ih
    have hst : minusSweep (B :: S) m =
        (if ¬ B.rows.length ≤ 1 ∧ (minusBlock B (minusSweep S m).2).1.x = [] then (minusSweep S m).1
          else (minusBlock B (minusSweep S m).2).1 :: (minusSweep S m).1,
         (minusBlock B (minusSweep S m).2).2) := rfl
    refine ⟨(minusBlock B (minusSweep S m).2).1 :: S1, .cons ⟨_, rfl⟩ h1, ?_, ?_⟩
    · rw [hst]
      simp only
      split
      · exact h2.cons _
      · exact h2.cons_cons _
    · rw [hst]
      simp only
      split
      · rename_i hx
        exact List.forall_mem_cons.mpr ⟨.inr hx.2, h3⟩
      · exact List.forall_mem_cons.mpr ⟨.inl (by simp), fun B hB => (h3 B hB).imp (List.mem_cons_of_mem _) id⟩

theorem Left.direct (h : Left E σ K S) (m : Marks) : Left E σ (singles σ E K) (directSweep S m).1 := by
  obtain ⟨S1, S2, h1, h2, h3⟩ := directSweep_passes m S
  have hl := (h.pass true h1).pass false h2
  rw [h3]
  refine hl.sub List.filter_sublist fun B hB => ?_
  by_cases hr : B.rows = []
  · right
    by_contra hx
    obtain ⟨r, hr', -⟩ := hl.covered B hB 0 (List.length_pos_iff.mpr hx)
    rw [hr] at hr'; simp at hr'
  · left
    rw [List.mem_filter]
    exact ⟨hB, by simpa using hr⟩

theorem Left.minus (h : Left E σ K S) (m : Marks) : Left E σ (paired σ E K) (minusSweep S m).1 := by
  obtain ⟨S1, h1, h2, h3⟩ := minusSweep_pass m S
  exact (h.pair h1).sub h2 h3

theorem reports_of_cells {g : Board} {m : Marks} {l : List (Pos × Bool)} {K' : Set Pos} (h : Left E σ K S) (h' : Left E σ K' S')
    (hK : K ⊆ K') (hE : ∀ p ∈ K', p ∈ K ∨ ∃ e ∈ E, p ∈ e) (_hr : Reports ⟨[], [], g⟩ m l) (hd : DedS S S' l) (p : Pos) (v : Bool) :
    (p, v) ∈ l ↔ p ∈ K' ∧ p ∉ K ∧ σ p = v := by
  have hag := ((hd.equiv σ).mp h.sat).2
  have hnd := hd.perm.nodup_iff.mp h.nodup
  rw [List.nodup_append] at hnd
  constructor
  · intro hl
    have h1 : p ∈ l.map (·.1) := List.mem_map.mpr ⟨_, hl, rfl⟩
    have h2 := (h.cells p).mp (hd.perm.mem_iff.mpr (List.mem_append_left _ h1))
    refine ⟨?_, h2.1, hag _ hl⟩
    by_contra h3
    exact hnd.2.2 p h1 p ((h'.cells p).mpr ⟨h3, h2.2⟩) rfl
  · rintro ⟨h1, h2, h3⟩
    have h4 := (h.cells p).mpr ⟨h2, (hE p h1).resolve_left h2⟩
    rcases List.mem_append.mp (hd.perm.mem_iff.mp h4) with h5 | h5
    · obtain ⟨q, hq, rfl⟩ := List.mem_map.mp h5
      have := hag q hq
      rw [h3] at this
      rw [this]
      exact hq
    · exact absurd h1 ((h'.cells p).mp h5).1

theorem singles_sub : K ⊆ singles σ E K := fun _ h => .inl (.inl h)

theorem singles_cells (p : Pos) (h : p ∈ singles σ E K) : p ∈ K ∨ ∃ e ∈ E, p ∈ e := by
  rcases h with (h | ⟨e, e1, e2, _⟩) | ⟨e, e1, e2, _⟩
  · exact .inl h
  · exact .inr ⟨e, e1, e2⟩
  · exact .inr ⟨e, e1, e2⟩

theorem paired_cells (p : Pos) (h : p ∈ paired σ E K) : p ∈ K ∨ ∃ e ∈ E, p ∈ e := by
  rcases h with h | ⟨e, e1, e', e1', -, -, -, ⟨x1, -⟩ | ⟨x1, -⟩⟩
  · exact .inl h
  · exact .inr ⟨e, e1, x1⟩
  · exact .inr ⟨e', e1', x1⟩

theorem pairs_sub : K ⊆ pairs σ E K := fun _ h => singles_sub (paired_sub h)

theorem pairs_cells (p : Pos) (h : p ∈ pairs σ E K) : p ∈ K ∨ ∃ e ∈ E, p ∈ e := by
  rcases singles_cells p h with h1 | h1
  · exact paired_cells p h1
  · exact .inr h1

/-- what is left after a pass that leaves no equation with right-hand side zero is cut into blocks -/
theorem Left.chunkMatrixes (h : Left E σ K S) (hr : ∀ B ∈ S, B.rows ≠ []) (hh : ∀ B ∈ S, RowsHit B)
    (hs : Ms.chunkMatrixes S = some S') : Left E σ K S' := by
  have hgood : ∀ B ∈ S, Block01 B ∧ RowsHit B ∧ BlockCovered B ∧ B.rows ≠ [] := fun B hB =>
    ⟨h.rect B hB, hh B hB, h.covered B hB, hr B hB⟩
  obtain ⟨S'', s1, s2⟩ := chunkMatrixes_spec S hgood
  rw [hs] at s1
  obtain rfl := Option.some.inj s1
  exact h.chunk (chunkMatrixes_keeps hgood hs) s2

/-- `solve_direct` -/
theorem Left.solveDirect (h : Left E σ K S) {g : Board} {out : SolveOut} (ho : Ms.solveDirect S g = some out) :
    Left E σ (singles σ E K) out.sys ∧ ∃ m l, out.board = m.board ∧ out.res = .ok (m.notMine, m.isMine) ∧ Reports ⟨[], [], g⟩ m l ∧
      DedS S out.sys l ∧ (∀ B ∈ out.sys, RowsHit B) ∧ (∀ B ∈ out.sys, B.rows ≠ []) ∧
      ∀ p v, (p, v) ∈ l ↔ p ∈ singles σ E K ∧ p ∉ K ∧ σ p = v := by
  obtain ⟨out', m, l, o1, o2, o3, o4, o5, o6, o7, o8⟩ := solveDirect_spec (g := g) h.rect h.covered ⟨σ, h.sat⟩
  rw [ho] at o1
  obtain rfl := Option.some.inj o1
  have hL : Left E σ (singles σ E K) out.sys := by
    have h1 := h.direct ⟨[], [], g⟩
    obtain ⟨l', d1, -, d3, d4⟩ := directSweep_spec ⟨[], [], g⟩ S h.rect h.covered
    unfold Ms.solveDirect at ho
    simp only at ho
    split at ho
    · obtain rfl := Option.some.inj ho
      simp at o3
    · cases hS : Ms.chunkMatrixes (directSweep S ⟨[], [], g⟩).1 with
      | none => rw [hS] at ho; simp at ho
      | some S' =>
        rw [hS] at ho
        obtain rfl := Option.some.inj ho
        refine h1.chunkMatrixes d3 (fun B hB r hr => ?_) hS
        refine hit_of_pos (σ := σ) (h1.rect B hB r hr).2 (x := B.x) ?_
        have e1 := lhs_nonneg σ r.1 B.x (h1.rect B hB r hr).2
        have e2 := h1.sat B hB r hr
        have e3 := d4 B hB r hr
        omega
  exact ⟨hL, m, l, o2, o3, o4, o5, o6, o7, reports_of_cells h hL singles_sub singles_cells o4 o5⟩

/-- `solve_minus` -/
theorem Left.solveMinus (h : Left E σ K S) {g : Board} {out : SolveOut} (ho : Ms.solveMinus S g = some out) :
    Left E σ (pairs σ E K) out.sys ∧ ∃ m l, out.board = m.board ∧ out.res = .ok (m.notMine, m.isMine) ∧ Reports ⟨[], [], g⟩ m l ∧
      DedS S out.sys l ∧ (∀ B ∈ out.sys, RowsHit B) ∧ (∀ B ∈ out.sys, B.rows ≠ []) ∧
      ∀ p v, (p, v) ∈ l ↔ p ∈ pairs σ E K ∧ p ∉ K ∧ σ p = v := by
  obtain ⟨out', m, l, o1, o2, o3, o4, o5, o6, o7, o8⟩ := solveMinus_spec (g := g) h.rect h.covered ⟨σ, h.sat⟩
  rw [ho] at o1
  obtain rfl := Option.some.inj o1
  have hL : Left E σ (pairs σ E K) out.sys := by
    have h1 := h.minus ⟨[], [], g⟩
    unfold Ms.solveMinus at ho
    simp only [Option.bind_eq_bind] at ho
    cases hd : Ms.solveDirect (minusSweep S ⟨[], [], g⟩).1 (minusSweep S ⟨[], [], g⟩).2.board with
    | none => rw [hd] at ho; simp at ho
    | some d =>
      rw [hd] at ho
      simp only [Option.bind_some] at ho
      obtain ⟨h2, m', l', -, p2, -, -, p5, p6, -⟩ := h1.solveDirect hd
      rw [p2] at ho
      simp only at ho
      cases hS : Ms.chunkMatrixes d.sys with
      | none => rw [hS] at ho; simp at ho
      | some S' =>
        rw [hS] at ho
        obtain rfl := Option.some.inj ho
        exact h2.chunkMatrixes p6 p5 hS
  exact ⟨hL, m, l, o2, o3, o4, o5, o6, o7, reports_of_cells h hL pairs_sub pairs_cells o4 o5⟩

/-! ## where the systems come from -/

theorem Left.ofGood (h : GoodSys S) (hs : Solves σ S) : Left (equationsOf S) σ ∅ S := by
  have hrow : ∀ B ∈ S, ∀ row ∈ B.rows,
      row.1 = B.x.map (ind {p | ∃ k, k < B.x.length ∧ B.x.getD k (0, 0) = p ∧ row.1.getD k 0 = 1}) := by
    intro B hB row hr
    have hnd : B.x.Nodup := by
      have := h.nodup
      unfold sysCells at this
      rw [List.nodup_flatMap] at this
      exact this.1 B hB
    obtain ⟨h1, h2⟩ := h.rect B hB row hr
    refine List.ext_getElem (by simp [h1]) fun k hk hk' => ?_
    have hkx : k < B.x.length := by simpa using hk'
    have e1 : row.1.getD k 0 = row.1[k] := by rw [List.getD_eq_getElem?_getD, List.getElem?_eq_getElem hk]; rfl
    have e2 : B.x.getD k (0, 0) = B.x[k] := by rw [List.getD_eq_getElem?_getD, List.getElem?_eq_getElem hkx]; rfl
    rw [List.getElem_map]
    have h01 := getD_mem01 h2 k
    rw [e1] at h01
    rcases h01 with h0 | h0
    · rw [h0]
      symm
      rw [ind_eq_zero]
      rintro ⟨k', a1, a2, a3⟩
      have e3 : B.x.getD k' (0, 0) = B.x[k'] := by rw [List.getD_eq_getElem?_getD, List.getElem?_eq_getElem a1]; rfl
      rw [e3] at a2
      have := (hnd.getElem_inj_iff).mp a2
      subst this
      rw [e1, h0] at a3
      simp at a3
    · rw [h0]
      symm
      rw [ind_eq_one]
      exact ⟨k, hkx, e2, by rw [e1, h0]⟩
  have hin : ∀ B ∈ S, ∀ row ∈ B.rows, ∀ t ∈ {p | ∃ k, k < B.x.length ∧ B.x.getD k (0, 0) = p ∧ row.1.getD k 0 = 1}, t ∈ B.x := by
    rintro B hB row hr t ⟨k, a1, rfl, -⟩
    exact getD_mem_of_lt _ a1
  refine ⟨h.rect, h.covered, hs, h.nodup, fun p => ?_, fun B hB row hr => ?_, ?_⟩
  · constructor
    · intro hp
      obtain ⟨B, hB, hp⟩ := mem_sysCells.mp hp
      obtain ⟨k, hk, rfl⟩ := mem_index hp
      obtain ⟨row, hr, h1⟩ := h.covered B hB k hk
      exact ⟨by simp, _, ⟨B, hB, row, hr, rfl⟩, k, hk, rfl, h1⟩
    · rintro ⟨-, e, ⟨B, hB, row, hr, rfl⟩, hp⟩
      exact mem_sysCells.mpr ⟨B, hB, hin B hB row hr p hp⟩
  · exact ⟨_, ⟨B, hB, row, hr, rfl⟩, hrow B hB row hr, fun t ht => .inr (hin B hB row hr t ht)⟩
  · rintro e ⟨B, hB, row, hr, rfl⟩ t ht -
    exact ⟨B, hB, ⟨row, hr, hrow B hB row hr⟩, fun t ht => .inr (hin B hB row hr t ht)⟩

end Ms
