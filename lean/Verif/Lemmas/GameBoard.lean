import Verif.Model.GameBoard
import Verif.Properties.Mark
import Verif.Properties.PossOpen
import Verif.Properties.Rounds

/-! # `GameBoard`: what `mark` leaves behind, and the layouts of the marked board -/

namespace Ms
open Spec Properties

/-- What `mark` finds out about the board `u` (without marks): the marked board `h`, safe cells and mines found by the
two basic engines, safe cells found by the enumeration. -/
structure Marking (r c : Nat) (u h : Board) (bn bi en : List Pos) : Prop where
  rect : Rect h r c
  get : ∀ p : Pos, p.1 < r → p.2 < c → h.get p.1 p.2 = if p ∈ bi then 11 else if p ∈ bn then 12 else u.get p.1 p.2
  nodup : (bn ++ bi).Nodup
  basicNot : ∀ p ∈ bn, Frontier u p ∧ Certain u p false
  basicIs : ∀ p ∈ bi, Frontier u p ∧ Certain u p true
  enumNot : ∀ p ∈ en, Frontier u p ∧ p ∉ bn ∧ p ∉ bi ∧ Certain u p false
  safe : FewFrontier u → ∀ p, Frontier u p → Certain u p false → p ∈ bn ∨ p ∈ en

theorem foldl_twelve {r c : Nat} : ∀ (l : List Pos) {b : Board}, Rect b r c → (∀ p ∈ l, p.1 < r ∧ p.2 < c) →
    Rect (l.foldl (fun b p => b.set p.1 p.2 12) b) r c ∧
    ∀ q : Pos, (l.foldl (fun b p => b.set p.1 p.2 12) b).get q.1 q.2 = if q ∈ l then 12 else b.get q.1 q.2
  | [], b, h, _ => ⟨h, fun q => by simp⟩
  | p :: l, b, h, hl => by
    obtain ⟨h1, h2⟩ := foldl_twelve l (rect_set h p.1 p.2 12) fun q hq => hl q (by simp [hq])
    refine ⟨h1, fun q => ?_⟩
    have hp := hl p (by simp)
    rw [List.foldl_cons, h2 q, get_set h hp.1 hp.2]
    by_cases hq : q ∈ l
    · simp [hq]
    · rw [if_neg hq]
      by_cases hqp : q = p
      · subst hqp; simp
      · rw [if_neg (fun hh => hqp (Prod.ext hh.1 hh.2)), if_neg (by simp [hq, hqp])]

theorem mark_spec {G : GameBoard} {r c : Nat} (hrect : Rect G.marked r c) (hr : 0 < r)
    (hle : ∀ p : Pos, p.1 < r → p.2 < c → G.marked.get p.1 p.2 ≤ 10)
    (hf : G.isMarked = false) (h1 : G.basicNot = []) (h2 : G.basicIs = []) (h3 : G.enumIs = [])
    (hcons : ∃ σ, Consistent G.marked σ) :
    ∃ h bn bi en, G.mark = some { G with
        marked := h, isMarked := true, basicNot := bn, basicIs := bi, enumNot := en, enumIs := [] } ∧
      Marking r c G.marked h bn bi en ∧ ∀ σ, Consistent G.marked σ → ∀ p,
        (p ∈ bn ↔ p ∈ quick σ (numbersOf G.marked) ∧ σ p = false) ∧ (p ∈ bi ↔ p ∈ quick σ (numbersOf G.marked) ∧ σ p = true) ∧
        (p ∈ en ↔ EngineSafe G.marked (quick σ (numbersOf G.marked)) p) := by
  obtain ⟨S, s1, s2⟩ := sysFor_of_consistent (r := r) (c := c) hcons
  obtain ⟨o, n, i, o2, n2, i2, d1, d2, d3, d4, d5, d6, d7, d8, d9⟩ := stage_both hrect hr s2 hcons
  obtain ⟨n3, i3, e1, e2, -, e4⟩ := enum_stage d7.ok d9
  have hd := rect_dims hrect hr
  have hcell : ∀ p, p ∈ n ++ n2 ∨ p ∈ i ++ i2 → Frontier G.marked p := fun p hp =>
    (s2.cells p).mp (hp.elim (fun h => d7.mem_n h) fun h => d7.mem_i h)
  have honb : ∀ p, Frontier G.marked p → p.1 < r ∧ p.2 < c := by
    intro p hp
    have := hp.1.1
    rw [hd.1, hd.2] at this
    exact mem_grid.mp this
  obtain ⟨f1, f2⟩ := foldl_twelve (n ++ n2) d7.rect fun p hp => honb p (hcell p (.inl hp))
  have hnd := d7.perm.nodup_iff.mp s2.good.nodup
  have hnd2 := List.nodup_append.mp hnd
  have hnd3 := List.nodup_append.mp hnd2.1
  set h := (n ++ n2).foldl (fun b p => b.set p.1 p.2 12) o2.board with hh
  have hget : ∀ p : Pos, h.get p.1 p.2 = if p ∈ n ++ n2 then 12 else if p ∈ i ++ i2 then 11 else G.marked.get p.1 p.2 := by
    intro p
    rw [f2 p, d7.marked p.1 p.2]
    by_cases hp : p ∈ n ++ n2
    · rw [if_pos hp, if_pos hp]
    · rw [if_neg hp, if_neg hp, if_neg hp]
  have hbi : ∀ p, p ∈ (cells h.row h.col).filter (fun p => decide (h.get p.1 p.2 = 11)) ↔ p ∈ i ++ i2 := by
    intro p
    have hd' := rect_dims f1 hr
    rw [List.mem_filter, hd'.1, hd'.2, mem_cells, decide_eq_true_eq, hget p]
    constructor
    · rintro ⟨⟨a, b⟩, hv⟩
      by_cases hp : p ∈ n ++ n2
      · rw [if_pos hp] at hv; simp at hv
      · rw [if_neg hp] at hv
        by_contra hno
        rw [if_neg hno] at hv
        have := hle p a b
        omega
    · intro hp
      have hno : p ∉ n ++ n2 := fun hn => hnd3.2.2 p hn p hp rfl
      rw [if_neg hno, if_pos hp]
      exact ⟨honb p (hcell p (.inr hp)), rfl⟩
  have hforce : ∀ σ, Consistent G.marked σ → (∀ p ∈ n ++ n2, σ p = false) ∧ ∀ p ∈ i ++ i2, σ p = true := fun σ hσ =>
    ((d7.equiv σ).mp ((s2.solves σ).mpr hσ)).2
  refine ⟨h, n ++ n2, (cells h.row h.col).filter (fun p => decide (h.get p.1 p.2 = 11)), n3, ?_, ?_, fun σ hσ p => ?_⟩
  · have hei : (cells h.row h.col).filter (fun p => decide (h.get p.1 p.2 = 11) &&
        !((cells h.row h.col).filter (fun p => decide (h.get p.1 p.2 = 11))).contains p) = [] := by
      rw [List.filter_eq_nil_iff]
      intro p hp hc
      rw [Bool.and_eq_true, Bool.not_eq_true', ← Bool.not_eq_true, List.contains_iff_mem] at hc
      exact hc.2 (List.mem_filter.mpr ⟨hp, hc.1⟩)
    unfold GameBoard.mark
    simp only [hf, Bool.false_eq_true, if_false, s1, d1, d2, d4, d5, e1, Option.bind_eq_bind, Option.bind_some, h1, h2, h3,
      List.nil_append]
    rw [← hh, hei]
    rfl
  · refine ⟨f1, fun p hp1 hp2 => ?_, ?_, fun p hp => ⟨hcell p (.inl hp), fun σ hσ => (hforce σ hσ).1 p hp⟩,
      fun p hp => ?_, fun p hp => ?_, fun hfew p hp hc => ?_⟩
    · rw [hget p]
      by_cases hp : p ∈ i ++ i2
      · have hno : p ∉ n ++ n2 := fun hn => hnd3.2.2 p hn p hp rfl
        rw [if_neg hno, if_pos hp, if_pos ((hbi p).mpr hp)]
      · rw [if_neg hp, if_neg (fun hc => hp ((hbi p).mp hc))]
    · rw [List.nodup_append]
      exact ⟨hnd3.1, (nodup_cells _ _).filter _, fun a ha b hb => hnd3.2.2 a ha b ((hbi b).mp hb)⟩
    · have hp := (hbi p).mp hp
      exact ⟨hcell p (.inr hp), fun σ hσ => (hforce σ hσ).2 p hp⟩
    · obtain ⟨a, b⟩ := e2 p hp
      refine ⟨(s2.cells p).mp (d7.perm.mem_iff.mpr (by simp [a])), fun hn => ?_, fun hn => ?_, fun σ hσ => ?_⟩
      · exact hnd2.2.2 p (List.mem_append.mpr (.inl hn)) p a rfl
      · exact hnd2.2.2 p (List.mem_append.mpr (.inr ((hbi p).mp hn))) p a rfl
      · exact b σ ((d7.equiv σ).mp ((s2.solves σ).mpr hσ)).1
    · have hm := d7.perm.mem_iff.mp ((s2.cells p).mpr hp)
      rw [List.mem_append, List.mem_append] at hm
      have hsat : ∃ σ, Solves σ S := by obtain ⟨σ, hσ⟩ := hcons; exact ⟨σ, (s2.solves σ).mpr hσ⟩
      rcases hm with (hm | hm) | hm
      · exact .inl hm
      · obtain ⟨σ, hσ⟩ := hcons
        have := (hforce σ hσ).2 p hm
        rw [hc σ hσ] at this
        simp at this
      · obtain ⟨e5, -⟩ := e4 (hfew.blocks s2 d7)
        exact .inr ((e5 p).mpr ⟨hm, (d7.forced s2.good.nodup hsat hm false).mpr
          fun σ hσ => hc σ ((s2.solves σ).mp hσ)⟩)
  · obtain ⟨hL, hC, hf⟩ := stage_quick s2 s1 hσ d1 d4 d7
    exact ⟨(hf p).1, (hbi p).trans (hf p).2, (engine_iff s2 hσ d7 d9 hL hC e1 p).1⟩

/-- `mark_board` on a board some layout explains (marks counted): it succeeds, with a marking. -/
theorem markBoard_marking {g : Board} {r c : Nat} (hrect : Rect g r c) (hr : 0 < r) (hcons : ∃ σ, Consistent g σ) :
    ∃ h bn bi en, markBoard g = some (.ok (), h) ∧ Marking r c g h bn bi en := by
  obtain ⟨S, s1, s2⟩ := sysFor_of_consistent (r := r) (c := c) hcons
  obtain ⟨o, n, i, o2, n2, i2, d1, d2, d3, d4, d5, d6, d7, d8, d9⟩ := stage_both hrect hr s2 hcons
  obtain ⟨n3, i3, e1, e2, -, e4⟩ := enum_stage d7.ok d9
  have hd := rect_dims hrect hr
  have hcell : ∀ p, p ∈ n ++ n2 ∨ p ∈ i ++ i2 → Frontier g p := fun p hp =>
    (s2.cells p).mp (hp.elim (fun h => d7.mem_n h) fun h => d7.mem_i h)
  have hnd := d7.perm.nodup_iff.mp s2.good.nodup
  have hnd2 := List.nodup_append.mp hnd
  have hforce : ∀ σ, Consistent g σ → (∀ p ∈ n ++ n2, σ p = false) ∧ ∀ p ∈ i ++ i2, σ p = true := fun σ hσ =>
    ((d7.equiv σ).mp ((s2.solves σ).mpr hσ)).2
  refine ⟨o2.board, n ++ n2, i ++ i2, n3, ?_, d7.rect, fun p _ _ => d7.marked p.1 p.2, hnd2.1,
    fun p hp => ⟨hcell p (.inl hp), fun σ hσ => (hforce σ hσ).1 p hp⟩,
    fun p hp => ⟨hcell p (.inr hp), fun σ hσ => (hforce σ hσ).2 p hp⟩, fun p hp => ?_, fun hfew p hp hc => ?_⟩
  · unfold markBoard
    simp only [s1, Option.bind_eq_bind, Option.bind_some, d1, d2, not_overfull d3.ok d8, Bool.false_eq_true, if_false, d4,
      not_overfull d7.ok d9]
    rfl
  · obtain ⟨a, b⟩ := e2 p hp
    refine ⟨(s2.cells p).mp (d7.perm.mem_iff.mpr (by simp [a])), fun hn => ?_, fun hn => ?_, fun σ hσ => ?_⟩
    · exact hnd2.2.2 p (List.mem_append.mpr (.inl hn)) p a rfl
    · exact hnd2.2.2 p (List.mem_append.mpr (.inr hn)) p a rfl
    · exact b σ ((d7.equiv σ).mp ((s2.solves σ).mpr hσ)).1
  · have hm := d7.perm.mem_iff.mp ((s2.cells p).mpr hp)
    rw [List.mem_append, List.mem_append] at hm
    have hsat : ∃ σ, Solves σ S := by obtain ⟨σ, hσ⟩ := hcons; exact ⟨σ, (s2.solves σ).mpr hσ⟩
    rcases hm with (hm | hm) | hm
    · exact .inl hm
    · obtain ⟨σ, hσ⟩ := hcons
      have := (hforce σ hσ).2 p hm
      rw [hc σ hσ] at this
      simp at this
    · obtain ⟨e5, -⟩ := e4 (hfew.blocks s2 d7)
      exact .inr ((e5 p).mpr ⟨hm, (d7.forced s2.good.nodup hsat hm false).mpr
        fun σ hσ => hc σ ((s2.solves σ).mp hσ)⟩)


section
variable {r c : Nat} {u h : Board} {bn bi en : List Pos} (M : Marking r c u h bn bi en) (hu : Rect u r c) (hr : 0 < r)
  (hle : ∀ p : Pos, p.1 < r → p.2 < c → u.get p.1 p.2 ≤ 10)
include M hu hr

theorem Marking.dims : u.row = r ∧ u.col = c ∧ h.row = r ∧ h.col = c :=
  ⟨(rect_dims hu hr).1, (rect_dims hu hr).2, (rect_dims M.rect hr).1, (rect_dims M.rect hr).2⟩

theorem Marking.number (p : Pos) : IsNumber h p ↔ IsNumber u p := by
  obtain ⟨d1, d2, d3, d4⟩ := M.dims hu hr
  unfold IsNumber
  rw [d1, d2, d3, d4]
  refine and_congr_right fun hp => ?_
  rw [M.get p (mem_grid.mp hp).1 (mem_grid.mp hp).2]
  split
  · rename_i hb
    have := (M.basicIs p hb).1.1.2
    omega
  · split
    · rename_i hb
      have := (M.basicNot p hb).1.1.2
      omega
    · rfl

theorem Marking.value (p : Pos) (hp : IsNumber u p) : h.get p.1 p.2 = u.get p.1 p.2 := by
  obtain ⟨d1, d2, d3, d4⟩ := M.dims hu hr
  have hg := hp.1
  rw [d1, d2] at hg
  have := hp.2.2
  rw [M.get p (mem_grid.mp hg).1 (mem_grid.mp hg).2, if_neg, if_neg]
  · intro hb
    have := (M.basicNot p hb).1.1.2
    omega
  · intro hb
    have := (M.basicIs p hb).1.1.2
    omega

theorem Marking.covered (p : Pos) : IsCovered h p ↔ IsCovered u p ∧ p ∉ bn ∧ p ∉ bi := by
  obtain ⟨d1, d2, d3, d4⟩ := M.dims hu hr
  unfold IsCovered
  rw [d1, d2, d3, d4, and_assoc]
  refine and_congr_right fun hp => ?_
  rw [M.get p (mem_grid.mp hp).1 (mem_grid.mp hp).2]
  split
  · rename_i hb; simp [hb]
  · split
    · rename_i hb; simp [hb]
    · rename_i h1 h2; simp [h1, h2]

/-- The cells marked as mines: those marked before and those found. -/
theorem Marking.markedSet_all : Spec.markedSet h = Spec.markedSet u ∪ bi.toFinset ∧ Disjoint (Spec.markedSet u) bi.toFinset := by
  obtain ⟨d1, d2, d3, d4⟩ := M.dims hu hr
  constructor
  · ext p
    unfold Spec.markedSet
    rw [d1, d2, d3, d4, Finset.mem_union, Finset.mem_filter, Finset.mem_filter, List.mem_toFinset]
    constructor
    · rintro ⟨hp, hv⟩
      have hp' := mem_grid.mp hp
      rw [M.get p hp'.1 hp'.2] at hv
      by_cases hb : p ∈ bi
      · exact .inr hb
      · rw [if_neg hb] at hv
        split at hv
        · omega
        · exact .inl ⟨hp, hv⟩
    · rintro (⟨hp, hv⟩ | hb)
      · refine ⟨hp, ?_⟩
        rw [M.get p (mem_grid.mp hp).1 (mem_grid.mp hp).2]
        split
        · rfl
        · rw [if_neg]
          · exact hv
          · intro hb
            have := (M.basicNot p hb).1.1.2
            omega
      · have hp := (M.basicIs p hb).1.1.1
        rw [d1, d2] at hp
        exact ⟨hp, by rw [M.get p (mem_grid.mp hp).1 (mem_grid.mp hp).2, if_pos hb]⟩
  · rw [Finset.disjoint_left]
    intro p hp hb
    have h1 := (Finset.mem_filter.mp hp).2
    have h2 := (M.basicIs p (List.mem_toFinset.mp hb)).1.1.2
    omega

include hle in
theorem Marking.markedSet : Spec.markedSet h = bi.toFinset := by
  obtain ⟨d1, d2, d3, d4⟩ := M.dims hu hr
  ext p
  unfold Spec.markedSet
  rw [d3, d4, Finset.mem_filter, List.mem_toFinset]
  constructor
  · rintro ⟨hp, hv⟩
    have hp := mem_grid.mp hp
    rw [M.get p hp.1 hp.2] at hv
    by_contra hb
    rw [if_neg hb] at hv
    have := hle p hp.1 hp.2
    split at hv <;> omega
  · intro hb
    have hp := (M.basicIs p hb).1.1.1
    rw [d1, d2] at hp
    refine ⟨hp, ?_⟩
    rw [M.get p (mem_grid.mp hp).1 (mem_grid.mp hp).2, if_pos hb]

theorem Marking.mines {σ τ : Pos → Bool} (h1 : ∀ q ∈ bi, σ q = true) (h0 : ∀ q ∈ bn, σ q = false)
    (hag : ∀ q, IsCovered h q → σ q = τ q) (p : Pos) : minesNear u σ p = minesNear h τ p := by
  obtain ⟨d1, d2, d3, d4⟩ := M.dims hu hr
  unfold minesNear
  rw [d1, d2, d3, d4]
  congr 1
  apply Finset.filter_congr
  intro q hq
  have hq' := mem_grid.mp hq
  have hc := M.covered hu hr q
  rw [M.get q hq'.1 hq'.2]
  by_cases hb : q ∈ bi
  · have := (M.basicIs q hb).1.1.2
    rw [if_pos hb, this, h1 q hb]
    simp
  · rw [if_neg hb]
    by_cases hb2 : q ∈ bn
    · have := (M.basicNot q hb2).1.1.2
      rw [if_pos hb2, this, h0 q hb2]
      simp
    · rw [if_neg hb2]
      by_cases h10 : u.get q.1 q.2 = 10
      · have : IsCovered h q := hc.mpr ⟨⟨by rw [d1, d2]; exact hq, h10⟩, hb2, hb⟩
        rw [hag q this]
      · simp [h10]

theorem Marking.consistent {σ τ : Pos → Bool} (h1 : ∀ q ∈ bi, σ q = true) (h0 : ∀ q ∈ bn, σ q = false)
    (hag : ∀ q, IsCovered h q → σ q = τ q) : Consistent u σ ↔ Consistent h τ := by
  constructor
  · intro hc p hp
    have hp' := (M.number hu hr p).mp hp
    rw [M.value hu hr p hp', ← M.mines hu hr h1 h0 hag]
    exact hc p hp'
  · intro hc p hp
    rw [← M.value hu hr p hp, M.mines hu hr h1 h0 hag]
    exact hc p ((M.number hu hr p).mpr hp)

theorem Marking.shares {a b : Pos} (hs : SharesNumbers h a b) : SharesNumbers u a b := by
  induction hs with
  | refl => exact .refl
  | tail _ h2 ih =>
    obtain ⟨h1, n, h2, h3⟩ := h2
    exact ih.tail ⟨((M.covered hu hr _).mp h1).1, n, (M.number hu hr n).mp h2, h3⟩

theorem Marking.reach {p : Pos} (hre : InReach u p) : InReach h p := by
  intro l hl hq
  apply hre l hl
  intro q hql
  obtain ⟨a, h1, h2, h3⟩ := hq q hql
  exact ⟨a, ((M.covered hu hr a).mp h1).1, h2, M.shares hu hr h3⟩

omit M hu hr in
/-- On a board some layout explains, within reach, `layouts` are all the layouts. -/
theorem layouts_mem {u : Board} (hre : ∀ p, IsNumber u p → InReach u p) (hc : ∃ σ, Consistent u σ) (m : Nat)
    (A : Finset Pos) :
    A ∈ Spec.layouts u m ↔ (∀ q ∈ A, IsCovered u q) ∧ A.card = m ∧ Consistent u fun q => decide (q ∈ A) := by
  refine layouts_all u hre (fun p hp hn => ?_) m A
  obtain ⟨σ, hσ⟩ := hc
  rw [hσ p hp]
  congr 1
  exact minesNear_finished (fun ⟨q, hq, hnq⟩ => hn q hnq hq) _ _

/-- The layouts of the board without marks are the layouts of the marked board together with the marked mines. -/
theorem Marking.layouts (hre : ∀ p, IsNumber u p → InReach u p) (hc : ∃ σ, Consistent u σ) (m : Nat) :
    (∀ A ∈ Spec.layouts u (m + bi.length), A \ bi.toFinset ∈ Spec.layouts h m ∧ bi.toFinset ⊆ A) ∧
    ∀ B ∈ Spec.layouts h m, B ∪ bi.toFinset ∈ Spec.layouts u (m + bi.length) ∧ Disjoint B bi.toFinset := by
  have hnd := List.nodup_append.mp M.nodup
  have hcard : bi.toFinset.card = bi.length := List.toFinset_card_of_nodup hnd.2.1
  have hch : ∃ σ, Consistent h σ := by
    obtain ⟨σ, hσ⟩ := hc
    exact ⟨σ, (M.consistent hu hr (fun q hq => (M.basicIs q hq).2 σ hσ) (fun q hq => (M.basicNot q hq).2 σ hσ)
      fun _ _ => rfl).mp hσ⟩
  have hreh : ∀ p, IsNumber h p → InReach h p := fun p hp => M.reach hu hr (hre p ((M.number hu hr p).mp hp))
  constructor
  · intro A hA
    rw [layouts_mem hre hc] at hA
    obtain ⟨a1, a2, a3⟩ := hA
    have hsub : bi.toFinset ⊆ A := by
      intro q hq
      have := (M.basicIs q (List.mem_toFinset.mp hq)).2 _ a3
      simpa using this
    refine ⟨(layouts_mem hreh hch m _).mpr ⟨fun q hq => ?_, ?_, ?_⟩, hsub⟩
    · rw [Finset.mem_sdiff, List.mem_toFinset] at hq
      refine (M.covered hu hr q).mpr ⟨a1 q hq.1, fun hb => ?_, hq.2⟩
      have := (M.basicNot q hb).2 _ a3
      simp only [decide_eq_false_iff_not] at this
      exact this hq.1
    · rw [Finset.card_sdiff_of_subset hsub, hcard, a2]; omega
    · refine (M.consistent hu hr (σ := fun q => decide (q ∈ A)) (fun q hq => (M.basicIs q hq).2 _ a3)
        (fun q hq => (M.basicNot q hq).2 _ a3) fun q hq => ?_).mp a3
      have := ((M.covered hu hr q).mp hq).2.2
      simp [this]
  · intro B hB
    rw [layouts_mem hreh hch] at hB
    obtain ⟨b1, b2, b3⟩ := hB
    have hcov := fun q hq => (M.covered hu hr q).mp (b1 q hq)
    have hdis : Disjoint B bi.toFinset := by
      rw [Finset.disjoint_left]
      intro q hq hb
      exact (hcov q hq).2.2 (List.mem_toFinset.mp hb)
    refine ⟨(layouts_mem hre hc _ _).mpr ⟨fun q hq => ?_, ?_, ?_⟩, hdis⟩
    · rw [Finset.mem_union, List.mem_toFinset] at hq
      exact hq.elim (fun hq => (hcov q hq).1) fun hq => (M.basicIs q hq).1.1
    · rw [Finset.card_union_of_disjoint hdis, hcard, b2]
    · refine (M.consistent hu hr (σ := fun q => decide (q ∈ B ∪ bi.toFinset)) (fun q hq => by simp [hq])
        (fun q hq => ?_) fun q hq => ?_).mpr b3
      · simp only [decide_eq_false_iff_not, Finset.mem_union, List.mem_toFinset, not_or]
        exact ⟨fun hB' => (hcov q hB').2.1 hq, fun hb => hnd.2.2 q hq q hb rfl⟩
      · have := ((M.covered hu hr q).mp hq).2.2
        simp [this]

open Classical in
theorem Marking.card_filter (hre : ∀ p, IsNumber u p → InReach u p) (hc : ∃ σ, Consistent u σ) (m : Nat)
    (f k : Finset Pos → Prop) (hfk : ∀ B, Disjoint B bi.toFinset → (f (B ∪ bi.toFinset) ↔ k B)) :
    ((Spec.layouts u (m + bi.length)).filter f).card = ((Spec.layouts h m).filter k).card := by
  obtain ⟨l1, l2⟩ := M.layouts hu hr hre hc m
  refine Finset.card_bij' (fun A _ => A \ bi.toFinset) (fun B _ => B ∪ bi.toFinset) ?_ ?_ ?_ ?_
  · intro A hA
    rw [Finset.mem_filter] at hA ⊢
    obtain ⟨a1, a2⟩ := l1 A hA.1
    refine ⟨a1, (hfk _ Finset.sdiff_disjoint).mp ?_⟩
    rw [Finset.sdiff_union_of_subset a2]
    exact hA.2
  · intro B hB
    rw [Finset.mem_filter] at hB ⊢
    obtain ⟨b1, b2⟩ := l2 B hB.1
    exact ⟨b1, (hfk _ b2).mpr hB.2⟩
  · intro A hA
    exact Finset.sdiff_union_of_subset (l1 A (Finset.mem_filter.mp hA).1).2
  · intro B hB
    have := (l2 B (Finset.mem_filter.mp hB).1).2
    rw [Finset.union_sdiff_right]
    exact Finset.sdiff_eq_self_of_disjoint this

end

end Ms
