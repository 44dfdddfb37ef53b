import Verif.Lemmas.GameEff

/-! # `bbbv_solved` against the 3BV of the board -/

namespace Ms
open Spec

open Classical in
/-- the opening that `p` belongs to -/
noncomputable def comp (v : View) (p : Pos) : Finset Pos :=
  (zeros v).filter fun q => Linked (zeros v) p q

open Classical in
/-- all openings -/
noncomputable def comps (v : View) : Finset (Finset Pos) := (zeros v).image (comp v)

open Classical in
theorem mem_comp {v : View} {p q : Pos} : q ∈ comp v p ↔ q ∈ zeros v ∧ Linked (zeros v) p q := by
  unfold comp; rw [Finset.mem_filter]

theorem mem_comps {v : View} {C : Finset Pos} : C ∈ comps v ↔ ∃ p ∈ zeros v, comp v p = C := by
  unfold comps; rw [Finset.mem_image]

theorem linked_zero {v : View} {p q : Pos} (hp : p ∈ zeros v) (h : Linked (zeros v) p q) : q ∈ zeros v := by
  induction h with
  | refl => exact hp
  | tail _ h _ => exact h.2.1

theorem comp_eq_iff {v : View} {p q : Pos} (hp : p ∈ zeros v) :
    comp v p = comp v q ↔ Linked (zeros v) q p := by
  constructor
  · intro h
    have : p ∈ comp v p := mem_comp.mpr ⟨hp, .refl⟩
    rw [h] at this
    exact (mem_comp.mp this).2
  · intro h
    ext x
    rw [mem_comp, mem_comp]
    exact ⟨fun hx => ⟨hx.1, h.trans hx.2⟩, fun hx => ⟨hx.1, h.symm.trans hx.2⟩⟩

theorem components_eq_card (v : View) : components (zeros v) = (comps v).card := by
  unfold components
  have hc : Nat.card (↑(comps v) : Set (Finset Pos)) = (comps v).card := by simp
  rw [← hc]
  refine Nat.card_eq_of_bijective
    (Quotient.lift (fun a : {p : Pos // p ∈ zeros v} =>
      (⟨comp v a.1, by exact_mod_cast mem_comps.mpr ⟨a.1, a.2, rfl⟩⟩ : (↑(comps v) : Set (Finset Pos))))
      (fun a b hab => by
        have : Linked (zeros v) a.1 b.1 := hab
        exact Subtype.ext ((comp_eq_iff a.2).mpr this.symm))) ⟨?_, ?_⟩
  · intro a b
    induction a using Quotient.ind
    induction b using Quotient.ind
    rename_i a b
    intro h
    have h : comp v a.1 = comp v b.1 := by
      have := congrArg Subtype.val h
      exact this
    exact Quotient.sound ((comp_eq_iff a.2).mp h).symm
  · rintro ⟨C, hC⟩
    obtain ⟨p, hp, rfl⟩ := mem_comps.mp (by exact_mod_cast hC : C ∈ comps v)
    exact ⟨Quotient.mk _ ⟨p, hp⟩, rfl⟩

/-- the isolated numbers shown on the game board -/
def openIso (v : View) (g : Board) : Finset Pos := (isolated v).filter fun p => shown g p < 10

open Classical in
/-- the openings shown completely -/
noncomputable def openComps (v : View) (g : Board) : Finset (Finset Pos) :=
  (comps v).filter fun C => ∀ z ∈ C, shown g z < 10

theorem mem_openComps {v : View} {g : Board} {C : Finset Pos} :
    C ∈ openComps v g ↔ C ∈ comps v ∧ ∀ z ∈ C, shown g z < 10 := by
  unfold openComps; rw [Finset.mem_filter]

/-- a zero opened by the cascade comes from a clicked zero of the same opening -/
theorem opens_root {v : View} {g : Board} {start : List Pos} {z : Pos} (h : Opens v g start z)
    (hz : z ∈ zeros v) (hs : ∀ p ∈ start, p ∈ vcells v) :
    ∃ q ∈ start, q ∈ zeros v ∧ Linked (zeros v) q z := by
  induction h with
  | click h => exact ⟨_, h, hz, .refl⟩
  | spread ho h0 hm ha hc ih =>
    rename_i p q
    have hp : p ∈ zeros v := by
      refine Finset.mem_filter.mpr ⟨?_, h0⟩
      cases ho with
      | click h => exact hs _ h
      | spread _ _ h _ _ => exact h
    obtain ⟨r, hr, hrz, hl⟩ := ih hp
    exact ⟨r, hr, hrz, hl.tail ⟨hp, hz, ha.1⟩⟩

/-- with no obstacle the whole opening is opened -/
theorem opens_linked {v : View} {g : Board} {start : List Pos} {q z : Pos} (hq : q ∈ start) (hqz : q ∈ zeros v)
    (hl : Linked (zeros v) q z) (hc : ∀ x ∈ zeros v, Linked (zeros v) q x → shown g x = 10) :
    Opens v g start z := by
  induction hl with
  | refl => exact .click hq
  | tail h1 h2 ih =>
    rename_i a b
    by_cases hab : a = b
    · exact hab ▸ ih
    · exact .spread ih (Finset.mem_filter.mp h2.1).2 (Finset.mem_filter.mp h2.2.1).1 ⟨h2.2.2, hab⟩
        (.inl (hc b h2.2.1 (h1.tail h2)))

namespace MSB

theorem cellIsBbbv_iff {s : MSB} (hdim : vcells s.board = grid s.row s.column) {p : Pos}
    (hp : p ∈ grid s.row s.column) : s.cellIsBbbv p = true ↔ p ∈ isolated s.board := by
  unfold cellIsBbbv isolated
  rw [Finset.mem_filter, hdim]
  split
  · next h =>
    rw [bd_val] at h
    simp only [Bool.false_eq_true, false_iff]
    omega
  · next h =>
    rw [bd_val] at h
    rw [List.all_eq_true]
    constructor
    · intro hh
      refine ⟨hp, by omega, fun q hq hn => ?_⟩
      have := hh q (mem_block_near.mpr ⟨hq, hn⟩)
      exact of_decide_eq_true this
    · rintro ⟨-, -, hh⟩ q hq
      have := mem_block_near.mp hq
      have := hh q this.1 this.2
      exact decide_eq_true this

open Classical in
/-- the counting loop of `op_num_around_cell` -/
theorem opNum_count {s : MSB} (hdim : vcells s.board = grid s.row s.column) (p : Pos) {n : Nat}
    (hn : s.opNumAroundCell p = some n) {T : List Pos}
    (hT : T = (block s.row s.column p.1 p.2).filter fun q => decide (s.gb q = 10 ∧ s.bd q = 0)) :
    ((T.toFinset.image (comp s.board)).filter fun C => ∀ z ∈ C, s.gb z ≠ 11).card ≤ n ∧
    ((∀ z ∈ zeros s.board, s.gb z ≠ 11) → n = (T.toFinset.image (comp s.board)).card) := by
  unfold opNumAroundCell at hn
  have key : ∀ (l : List Pos) (st st' : Nat × List Pos) (D : Finset (Finset Pos)),
      (∀ q ∈ l, q ∈ grid s.row s.column) →
      l.foldlM (m := Option) s.opNumStep st = some st' →
      (D.filter fun C => ∀ z ∈ C, s.gb z ≠ 11).card ≤ st.1 →
      (∀ m ∈ st.2, m ∈ zeros s.board ∧ comp s.board m ∈ D) →
      ((∀ z ∈ zeros s.board, s.gb z ≠ 11) → st.1 = D.card ∧ ∀ C ∈ D, ∀ z ∈ C, z ∈ st.2) →
      (((D ∪ ((l.filter fun q => decide (s.gb q = 10 ∧ s.bd q = 0)).toFinset.image (comp s.board))).filter
        fun C => ∀ z ∈ C, s.gb z ≠ 11).card ≤ st'.1) ∧
      ((∀ z ∈ zeros s.board, s.gb z ≠ 11) → st'.1 =
        (D ∪ ((l.filter fun q => decide (s.gb q = 10 ∧ s.bd q = 0)).toFinset.image (comp s.board))).card) := by
    intro l
    induction l with
    | nil =>
      intro st st' D _ h h1 h2 h3
      simp only [List.foldlM_nil] at h
      obtain rfl : st = st' := by simpa using h
      simp only [List.filter_nil, List.toFinset_nil, Finset.image_empty, Finset.union_empty]
      exact ⟨h1, fun hf => (h3 hf).1⟩
    | cons q l ih =>
      intro st st' D hl h h1 h2 h3
      rw [List.foldlM_cons] at h
      obtain ⟨st1, e1, e2⟩ := Option.bind_eq_some_iff.mp h
      have hl' : ∀ q ∈ l, q ∈ grid s.row s.column := fun x hx => hl x (List.mem_cons_of_mem _ hx)
      unfold opNumStep at e1
      by_cases hq : s.gb q = 10 ∧ s.bd q = 0
      · have hqz : q ∈ zeros s.board := Finset.mem_filter.mpr ⟨hdim ▸ hl q (by simp), hq.2⟩
        have hset : D ∪ (((q :: l).filter fun q => decide (s.gb q = 10 ∧ s.bd q = 0)).toFinset.image
            (comp s.board)) = insert (comp s.board q) D ∪
            ((l.filter fun q => decide (s.gb q = 10 ∧ s.bd q = 0)).toFinset.image (comp s.board)) := by
          rw [List.filter_cons_of_pos (by simpa using hq), List.toFinset_cons, Finset.image_insert,
            Finset.union_insert, Finset.insert_union]
        rw [hset]
        by_cases hm : q ∈ st.2
        · rw [if_neg (by tauto)] at e1
          obtain rfl : st = st1 := by simpa using e1
          have hin : insert (comp s.board q) D = D := Finset.insert_eq_of_mem (h2 q hm).2
          rw [hin]
          exact ih st st' D hl' e2 h1 h2 h3
        · rw [if_pos ⟨hq.1, hq.2, hm⟩] at e1
          obtain ⟨b, M, c1, c2, c3, c4, c5⟩ := cellIsOpCompleted_spec hdim hqz st.2
          rw [c1] at e1
          simp only [Option.map_some, Option.some.injEq] at e1
          subst e1
          refine ih _ st' _ hl' e2 ?_ ?_ ?_
          · simp only
            rw [Finset.filter_insert]
            split
            · next hfree =>
              have hb : b = true := c4 (fun z hz hzl => hfree z (mem_comp.mpr ⟨hz, hzl⟩))
              rw [if_pos hb]
              exact (Finset.card_insert_le _ _).trans (by omega)
            · split
              · exact Nat.le_succ_of_le h1
              · exact h1
          · intro m hmM
            simp only at hmM
            rcases c3 m hmM with hm' | ⟨hm1, hm2⟩
            · exact ⟨(h2 m hm').1, Finset.mem_insert_of_mem (h2 m hm').2⟩
            · refine ⟨hm1, ?_⟩
              rw [(comp_eq_iff hm1).mpr hm2]
              exact Finset.mem_insert_self _ _
          · intro hf
            obtain ⟨h4, h5⟩ := h3 hf
            have hb : b = true := c4 (fun z hz _ => hf z hz)
            have hnew : comp s.board q ∉ D := by
              intro hin
              exact hm (h5 _ hin q (mem_comp.mpr ⟨hqz, .refl⟩))
            have hdis : ∀ x ∈ st.2, ¬ Linked (zeros s.board) q x := by
              intro x hx hlx
              apply hnew
              rw [← (comp_eq_iff (h2 x hx).1).mpr hlx]
              exact (h2 x hx).2
            refine ⟨?_, ?_⟩
            · simp only [hb, if_true]
              rw [Finset.card_insert_of_notMem hnew, h4]
            · intro C hC z hz
              rcases Finset.mem_insert.mp hC with rfl | hC
              · exact (c5 hdis hb z (mem_comp.mp hz).2).1
              · exact c2 z (h5 C hC z hz)
      · rw [if_neg (by tauto)] at e1
        obtain rfl : st = st1 := by simpa using e1
        rw [List.filter_cons_of_neg (by simpa using hq)]
        exact ih st st' D hl' e2 h1 h2 h3
  cases hfm : (block s.row s.column p.1 p.2).foldlM (m := Option) s.opNumStep (0, []) with
  | none => rw [hfm] at hn; simp at hn
  | some st' =>
    rw [hfm] at hn
    simp only [Option.map_some, Option.some.injEq] at hn
    have := key _ _ _ ∅ (fun q hq => (mem_block_near.mp hq).1) hfm (by simp) (by simp) (by simp)
    rw [Finset.empty_union] at this
    rw [hT, ← hn]
    exact this

/-- every opening is shown completely or not at all -/
def AllOrNone (v : View) (g : Board) : Prop :=
  ∀ C ∈ comps v, (∃ z ∈ C, shown g z < 10) → ∀ z ∈ C, shown g z < 10

theorem zeros_grid {s : MSB} (h : s.Core) {z : Pos} (hz : z ∈ zeros s.board) :
    z ∈ grid s.row s.column ∧ s.bd z = 0 := by
  have := Finset.mem_filter.mp hz
  exact ⟨h.vcells ▸ this.1, this.2⟩

theorem comps_zero {v : View} {C : Finset Pos} (hC : C ∈ comps v) {z : Pos} (hz : z ∈ C) : z ∈ zeros v := by
  obtain ⟨p, _, rfl⟩ := mem_comps.mp hC
  exact (mem_comp.mp hz).1

theorem comps_eq {v : View} {C : Finset Pos} (hC : C ∈ comps v) {z : Pos} (hz : z ∈ C) : C = comp v z := by
  obtain ⟨p, hp, rfl⟩ := mem_comps.mp hC
  exact (comp_eq_iff hp).mpr (mem_comp.mp hz).2.symm

/-- which cells show a number after opening -/
theorem shown_after {s : MSB} (h : s.Core) (hst : s.state ≠ .loss) {start : List Pos}
    (hs : ∀ p ∈ start, p ∈ grid s.row s.column ∧ s.gb p = 10) {g' : Board}
    (hg : refreshBoard s.board s.gameBoard start = some g') {z : Pos} (hz : z ∈ grid s.row s.column)
    (hb : s.bd z ≠ -1) : shown g' z < 10 ↔ (s.gb z < 10 ∨ Opens s.board s.gameBoard start z) := by
  obtain ⟨g'', h1, h2, h3⟩ := refresh_core h hs
  rw [hg] at h1
  obtain rfl : g' = g'' := by simpa using h1
  have h4 := h3 z hz
  rw [shown_eq, h4]
  have hr := h.bd_range hz
  by_cases ho : Opens s.board s.gameBoard start z
  · rw [if_pos ho, if_neg hb]
    simp only [ho, or_true, iff_true]; omega
  · rw [if_neg ho]
    simp only [ho, or_false]
    split
    · next hx => omega
    · rfl

theorem openIso_after {s : MSB} (h : s.Core) (hst : s.state ≠ .loss) {start : List Pos} (hnd : start.Nodup)
    (hs : ∀ p ∈ start, p ∈ grid s.row s.column ∧ s.gb p = 10) {g' : Board}
    (hg : refreshBoard s.board s.gameBoard start = some g') :
    (openIso s.board g').card = (openIso s.board s.gameBoard).card +
      (start.filter fun q => decide (s.bd q > 0) && s.cellIsBbbv q).length := by
  rw [← List.toFinset_card_of_nodup (hnd.filter _), ← Finset.card_union_of_disjoint]
  · congr 1
    ext q
    unfold openIso
    rw [Finset.mem_filter, Finset.mem_union, Finset.mem_filter, List.mem_toFinset, List.mem_filter]
    constructor
    · rintro ⟨hq, h1⟩
      have hq' := Finset.mem_filter.mp hq
      have hqg : q ∈ grid s.row s.column := h.vcells ▸ hq'.1
      have hqb : s.bd q ≠ -1 := by rw [bd_val]; omega
      rcases (shown_after h hst hs hg hqg hqb).mp h1 with h2 | h2
      · exact .inl ⟨hq, h2⟩
      · right
        cases h2 with
        | click hc =>
          refine ⟨hc, ?_⟩
          rw [Bool.and_eq_true, decide_eq_true_eq]
          exact ⟨hq'.2.1, (cellIsBbbv_iff h.vcells hqg).mpr hq⟩
        | spread ho h0 _ ha _ =>
          exfalso
          have hp := (opens_covered h hs ho).1
          exact hq'.2.2 _ (h.vcells ▸ hp) ha.1.symm h0
    · rintro (⟨hq, h1⟩ | ⟨hq, h1⟩)
      · have hq' := Finset.mem_filter.mp hq
        have hqg : q ∈ grid s.row s.column := h.vcells ▸ hq'.1
        have hqb : s.bd q ≠ -1 := by rw [bd_val]; omega
        exact ⟨hq, (shown_after h hst hs hg hqg hqb).mpr (.inl h1)⟩
      · rw [Bool.and_eq_true, decide_eq_true_eq] at h1
        have hqg := (hs q hq).1
        refine ⟨(cellIsBbbv_iff h.vcells hqg).mp h1.2, ?_⟩
        exact (shown_after h hst hs hg hqg (by omega)).mpr (.inr (.click hq))
  · rw [Finset.disjoint_left]
    intro q hq hq'
    unfold openIso at hq
    rw [Finset.mem_filter] at hq
    rw [List.mem_toFinset, List.mem_filter] at hq'
    have h1 : s.gb q < 10 := hq.2
    have h2 := (hs q hq'.1).2
    omega

open Classical in
theorem openComps_le {s : MSB} (h : s.Core) (hst : s.state ≠ .loss) {start : List Pos}
    (hs : ∀ p ∈ start, p ∈ grid s.row s.column ∧ s.gb p = 10) {g' : Board}
    (hg : refreshBoard s.board s.gameBoard start = some g') :
    (openComps s.board g').card ≤ (openComps s.board s.gameBoard).card +
      ((((start.filter fun q => decide (s.bd q = 0)).toFinset.image (comp s.board))).filter
        fun C => ∀ z ∈ C, s.gb z ≠ 11).card := by
  refine le_trans (Finset.card_le_card ?_) (Finset.card_union_le _ _)
  intro C hC
  obtain ⟨hC1, hC2⟩ := mem_openComps.mp hC
  rw [Finset.mem_union]
  by_cases hold : ∀ z ∈ C, s.gb z < 10
  · exact .inl (mem_openComps.mpr ⟨hC1, hold⟩)
  · right
    push Not at hold
    obtain ⟨z, hz, hz10⟩ := hold
    have hopen : ∀ x ∈ C, s.gb x ≥ 10 → Opens s.board s.gameBoard start x := by
      intro x hx hx10
      obtain ⟨hxg, hx0⟩ := zeros_grid h (comps_zero hC1 hx)
      rcases (shown_after h hst hs hg hxg (by omega)).mp (hC2 x hx) with h1 | h1
      · omega
      · exact h1
    obtain ⟨q, hq, hqz, hl⟩ := opens_root (hopen z hz hz10) (comps_zero hC1 hz)
      (fun p hp => h.vcells ▸ (hs p hp).1)
    rw [Finset.mem_filter, Finset.mem_image]
    refine ⟨⟨q, ?_, ?_⟩, ?_⟩
    · rw [List.mem_toFinset, List.mem_filter]
      exact ⟨hq, decide_eq_true (Finset.mem_filter.mp hqz).2⟩
    · rw [comps_eq hC1 hz]
      exact (comp_eq_iff hqz).mpr hl.symm
    · intro x hx h11
      have := (opens_covered h hs (hopen x hx (by omega))).2
      omega

open Classical in
theorem openComps_eq {s : MSB} (h : s.Core) (hst : s.state ≠ .loss) {start : List Pos}
    (hs : ∀ p ∈ start, p ∈ grid s.row s.column ∧ s.gb p = 10) {g' : Board}
    (hg : refreshBoard s.board s.gameBoard start = some g') (hA : AllOrNone s.board s.gameBoard)
    (hf : ∀ z ∈ zeros s.board, s.gb z ≠ 11) :
    (openComps s.board g').card = (openComps s.board s.gameBoard).card +
      ((start.filter fun q => decide (s.bd q = 0)).toFinset.image (comp s.board)).card ∧
    AllOrNone s.board g' := by
  have hcov : ∀ q ∈ start, q ∈ zeros s.board → ∀ x ∈ zeros s.board, Linked (zeros s.board) q x → s.gb x = 10 := by
    intro q hq hqz x hx hl
    obtain ⟨hxg, hx0⟩ := zeros_grid h hx
    have hm := h.marks x hxg
    simp only [hst, false_and, or_false] at hm
    rcases hm with h1 | h1 | h1
    · exact h1
    · exact absurd h1 (hf x hx)
    · exfalso
      have := hA (comp s.board q) (mem_comps.mpr ⟨q, hqz, rfl⟩)
        ⟨x, mem_comp.mpr ⟨hx, hl⟩, by change s.gb x < 10; omega⟩ q (mem_comp.mpr ⟨hqz, .refl⟩)
      have h2 : s.gb q < 10 := this
      have := (hs q hq).2
      omega
  have hall : ∀ q ∈ start, q ∈ zeros s.board → ∀ x ∈ comp s.board q, shown g' x < 10 := by
    intro q hq hqz x hx
    obtain ⟨hx, hl⟩ := mem_comp.mp hx
    obtain ⟨hxg, hx0⟩ := zeros_grid h hx
    exact (shown_after h hst hs hg hxg (by omega)).mpr (.inr (opens_linked hq hqz hl (hcov q hq hqz)))
  have hback : ∀ C ∈ comps s.board, ∀ z ∈ C, shown g' z < 10 → s.gb z ≥ 10 →
      ∃ q ∈ start, q ∈ zeros s.board ∧ comp s.board q = C := by
    intro C hC z hz h1 h10
    obtain ⟨hzg, hz0⟩ := zeros_grid h (comps_zero hC hz)
    rcases (shown_after h hst hs hg hzg (by omega)).mp h1 with h2 | h2
    · omega
    · obtain ⟨q, hq, hqz, hl⟩ := opens_root h2 (comps_zero hC hz) (fun p hp => h.vcells ▸ (hs p hp).1)
      refine ⟨q, hq, hqz, ?_⟩
      rw [comps_eq hC hz]
      exact (comp_eq_iff hqz).mpr hl.symm
  constructor
  · rw [← Finset.card_union_of_disjoint]
    · congr 1
      ext C
      rw [Finset.mem_union, Finset.mem_image]
      constructor
      · intro hC
        obtain ⟨hC1, hC2⟩ := mem_openComps.mp hC
        by_cases hold : ∀ z ∈ C, s.gb z < 10
        · exact .inl (mem_openComps.mpr ⟨hC1, hold⟩)
        · right
          push Not at hold
          obtain ⟨z, hz, hz10⟩ := hold
          obtain ⟨q, hq, hqz, e⟩ := hback C hC1 z hz (hC2 z hz) hz10
          refine ⟨q, ?_, e⟩
          rw [List.mem_toFinset, List.mem_filter]
          exact ⟨hq, decide_eq_true (Finset.mem_filter.mp hqz).2⟩
      · rintro (hC | ⟨q, hq, rfl⟩)
        · obtain ⟨hC1, hC2⟩ := mem_openComps.mp hC
          refine mem_openComps.mpr ⟨hC1, fun z hz => ?_⟩
          obtain ⟨hzg, hz0⟩ := zeros_grid h (comps_zero hC1 hz)
          exact (shown_after h hst hs hg hzg (by omega)).mpr (.inl (hC2 z hz))
        · rw [List.mem_toFinset, List.mem_filter, decide_eq_true_eq] at hq
          have hqz : q ∈ zeros s.board := Finset.mem_filter.mpr ⟨h.vcells ▸ (hs q hq.1).1, hq.2⟩
          exact mem_openComps.mpr ⟨mem_comps.mpr ⟨q, hqz, rfl⟩, hall q hq.1 hqz⟩
    · rw [Finset.disjoint_left]
      intro C hC hC'
      obtain ⟨q, hq, rfl⟩ := Finset.mem_image.mp hC'
      rw [List.mem_toFinset, List.mem_filter, decide_eq_true_eq] at hq
      have hqz : q ∈ zeros s.board := Finset.mem_filter.mpr ⟨h.vcells ▸ (hs q hq.1).1, hq.2⟩
      have h1 : s.gb q < 10 := (mem_openComps.mp hC).2 q (mem_comp.mpr ⟨hqz, .refl⟩)
      have := (hs q hq.1).2
      omega
  · rintro C hC ⟨z, hz, hz10⟩
    by_cases hold : s.gb z < 10
    · intro x hx
      obtain ⟨hxg, hx0⟩ := zeros_grid h (comps_zero hC hx)
      exact (shown_after h hst hs hg hxg (by omega)).mpr (.inl (hA C hC ⟨z, hz, hold⟩ x hx))
    · obtain ⟨q, hq, hqz, rfl⟩ := hback C hC z hz hz10 (by omega)
      exact hall q hq hqz

/-- `bbbv_solved` counts at least the 3BV shown -/
def SolvedGe (s : MSB) : Prop :=
  (openIso s.board s.gameBoard).card + (openComps s.board s.gameBoard).card ≤ s.bbbvSolved

/-- `bbbv_solved` is the 3BV shown -/
def SolvedEq (s : MSB) : Prop :=
  (openIso s.board s.gameBoard).card + (openComps s.board s.gameBoard).card = s.bbbvSolved ∧
    AllOrNone s.board s.gameBoard

/-- what is shown open is the same on both boards -/
theorem open_congr {v : View} {g g' : Board} (h : ∀ p ∈ vcells v, 0 ≤ val v p → (shown g' p < 10 ↔ shown g p < 10)) :
    openIso v g' = openIso v g ∧ openComps v g' = openComps v g ∧ (AllOrNone v g → AllOrNone v g') := by
  have hz : ∀ C ∈ comps v, ∀ z ∈ C, (shown g' z < 10 ↔ shown g z < 10) := fun C hC z hz => by
    have := Finset.mem_filter.mp (comps_zero hC hz)
    exact h z this.1 (by omega)
  refine ⟨?_, ?_, ?_⟩
  · unfold openIso
    apply Finset.filter_congr
    intro p hp
    have := Finset.mem_filter.mp hp
    exact h p this.1 (by omega)
  · ext C
    rw [mem_openComps, mem_openComps]
    constructor
    · rintro ⟨h1, h2⟩; exact ⟨h1, fun z hzC => (hz C h1 z hzC).mp (h2 z hzC)⟩
    · rintro ⟨h1, h2⟩; exact ⟨h1, fun z hzC => (hz C h1 z hzC).mpr (h2 z hzC)⟩
  · rintro hA C hC ⟨z, hzC, h1⟩ x hx
    exact (hz C hC x hx).mpr (hA C hC ⟨z, hzC, (hz C hC z hzC).mp h1⟩ x hx)

/-- the two invariants pass from `s` to `s'`; the second needs that nothing is opened while a zero is
flagged -/
def SolvedStep (s s' : MSB) (r : Option Nat) : Prop :=
  (s.SolvedGe → s'.SolvedGe) ∧
  ((r = some 2 ∨ r = some 3 → ∀ z ∈ zeros s.board, s.gb z ≠ 11) → s.SolvedEq → s'.SolvedEq)

theorem solvedStep_of_congr {s s' : MSB} {r : Option Nat} (hb : s'.board = s.board)
    (hv : s'.bbbvSolved = s.bbbvSolved)
    (hg : ∀ p ∈ vcells s.board, 0 ≤ val s.board p → (s'.gb p < 10 ↔ s.gb p < 10)) : SolvedStep s s' r := by
  obtain ⟨h1, h2, h3⟩ := open_congr (v := s.board) (g := s.gameBoard) (g' := s'.gameBoard) hg
  unfold SolvedStep SolvedGe SolvedEq
  rw [hb, hv, h1, h2]
  exact ⟨id, fun _ h => ⟨h.1, h3 h.2⟩⟩

/-- opening cells, with a gain that covers the openings opened -/
theorem solvedStep_open {s s' : MSB} {r : Option Nat} (h : s.Core) (hst : s.state ≠ .loss) {start : List Pos}
    (hnd : start.Nodup) (hs : ∀ p ∈ start, p ∈ grid s.row s.column ∧ s.gb p = 10) {g' : Board}
    (hg : refreshBoard s.board s.gameBoard start = some g') (hb : s'.board = s.board)
    (hgb : s'.gameBoard = g') (hr : r = some 2 ∨ r = some 3) {k : Nat}
    (hv : s'.bbbvSolved = s.bbbvSolved +
      (start.filter fun q => decide (s.bd q > 0) && s.cellIsBbbv q).length + k)
    (hk : open Classical in ((((start.filter fun q => decide (s.bd q = 0)).toFinset.image (comp s.board))).filter
        fun C => ∀ z ∈ C, s.gb z ≠ 11).card ≤ k)
    (hk' : open Classical in (∀ z ∈ zeros s.board, s.gb z ≠ 11) →
      k = ((start.filter fun q => decide (s.bd q = 0)).toFinset.image (comp s.board)).card) :
    SolvedStep s s' r := by
  have h1 := openIso_after h hst hnd hs hg
  have h2 := openComps_le h hst hs hg
  unfold SolvedStep SolvedGe SolvedEq
  rw [hb, hgb, hv, h1]
  refine ⟨fun hh => by omega, fun hf hh => ?_⟩
  obtain ⟨h3, h4⟩ := openComps_eq h hst hs hg hh.2 (hf hr)
  have := hk' (hf hr)
  exact ⟨by omega, h4⟩

theorem LeftEff.solved {s s' : MSB} {p : Pos} {r : Option Nat} (h : s.Core) (hst : s.state ≠ .loss)
    (hp : p ∈ grid s.row s.column) (e : LeftEff s p s' r) : SolvedStep s s' r := by
  classical
  cases e with
  | none _ => exact solvedStep_of_congr rfl rfl (fun _ _ _ => Iff.rfl)
  | mine h10 hb hg =>
    refine solvedStep_of_congr rfl rfl (fun z hz h0 => ?_)
    have hs : ∀ q ∈ [p], q ∈ grid s.row s.column ∧ s.gb q = 10 := by simpa using ⟨hp, h10⟩
    have := shown_after h hst hs hg (h.vcells ▸ hz) (by rw [bd_val]; omega)
    refine this.trans ⟨?_, .inl⟩
    rintro (h1 | h1)
    · exact h1
    · exfalso
      cases h1 with
      | click hc =>
        simp only [List.mem_singleton] at hc
        subst hc
        rw [bd_val] at hb; omega
      | spread ho hq0 _ _ _ =>
        have hq := (opens_covered h hs ho).1
        obtain ⟨q, hq, hqz, _⟩ := opens_root ho (Finset.mem_filter.mpr ⟨h.vcells ▸ hq, hq0⟩)
          (fun q hq => h.vcells ▸ (hs q hq).1)
        simp only [List.mem_singleton] at hq
        subst hq
        have := (zeros_grid h hqz).2
        omega
  | safe h10 hb hg =>
    rename_i g'
    have hs : ∀ q ∈ [p], q ∈ grid s.row s.column ∧ s.gb q = 10 := by simpa using ⟨hp, h10⟩
    have hf := checkWin_frame { s with
        left := s.left + 1, gameBoard := g', ce := s.ce + 1,
        bbbvSolved := s.bbbvSolved + leftGain { s with left := s.left + 1 } p }
    have hbb : cellIsBbbv { s with left := s.left + 1 } p = s.cellIsBbbv p := cellIsBbbv_congr rfl rfl rfl p
    have hbd : MSB.bd { s with left := s.left + 1 } p = s.bd p := rfl
    have hrange := h.bd_range hp
    by_cases h0 : s.bd p = 0
    · have hz : p ∈ zeros s.board := Finset.mem_filter.mpr ⟨h.vcells ▸ hp, h0⟩
      obtain ⟨b, M, c1, c2, c3, c4, c5⟩ :=
        cellIsOpCompleted_spec (s := { s with left := s.left + 1 }) h.vcells hz []
      refine solvedStep_open h hst (by simp) hs hg hf.1 hf.2.1 (.inl rfl)
        (k := leftGain { s with left := s.left + 1 } p) ?_ ?_ ?_
      · rw [hf.2.2.2.2.2.2.2.2.2.2.1]
        simp [h0]
      · unfold leftGain
        rw [hbd, if_pos h0, c1, List.filter_cons_of_pos (by simpa using h0)]
        simp only [List.filter_nil, List.toFinset_cons, List.toFinset_nil, insert_empty_eq,
          Finset.image_singleton, Finset.filter_singleton]
        split
        · next hfree =>
          have hbt : b = true := c4 (fun z hz hl => hfree z (mem_comp.mpr ⟨hz, hl⟩))
          subst hbt
          simp
        · simp
      · intro hnf
        have hbt : b = true := c4 (fun z hz _ => hnf z hz)
        unfold leftGain
        rw [hbd, if_pos h0, c1, List.filter_cons_of_pos (by simpa using h0)]
        subst hbt
        simp
    · refine solvedStep_open h hst (by simp) hs hg hf.1 hf.2.1 (.inl rfl) (k := 0) ?_ ?_ ?_
      · rw [hf.2.2.2.2.2.2.2.2.2.2.1]
        simp only
        unfold leftGain
        rw [hbd, if_neg h0, hbb]
        have hpos : s.bd p > 0 := by omega
        by_cases hi : s.cellIsBbbv p = true
        · simp [hpos, hi]
        · simp [hi]
      · rw [List.filter_cons_of_neg (by simpa using h0)]
        simp
      · rw [List.filter_cons_of_neg (by simpa using h0)]
        simp

theorem opNumAroundCell_congr {s t : MSB} (h1 : t.board = s.board) (h2 : t.gameBoard = s.gameBoard)
    (h3 : t.row = s.row) (h4 : t.column = s.column) (p : Pos) : ∀ q, t.gb q = s.gb q := by
  intro q; unfold gb; rw [h2]

theorem ChordEff.solved {s s' : MSB} {p : Pos} {r : Option Nat} (h : s.Core) (hst : s.state ≠ .loss)
    (e : ChordEff s p s' r) : SolvedStep s s' r := by
  classical
  cases e with
  | none _ => exact solvedStep_of_congr rfl rfl (fun _ _ _ => Iff.rfl)
  | opens hc hn hg =>
    rename_i g' n
    have hs : ∀ q ∈ s.chordCells p, q ∈ grid s.row s.column ∧ s.gb q = 10 :=
      fun q hq => ⟨(mem_chordCells.mp hq).1, (mem_chordCells.mp hq).2.2⟩
    have hf := checkWin_frame { s.preChord p with bbbvSolved := (s.preChord p).bbbvSolved + n, gameBoard := g' }
    have hcount := opNum_count (s := s.preChord p) h.vcells p hn rfl
    have hset : (((block (s.preChord p).row (s.preChord p).column p.1 p.2).filter
        fun q => decide ((s.preChord p).gb q = 10 ∧ (s.preChord p).bd q = 0)).toFinset) =
        ((s.chordCells p).filter fun q => decide (s.bd q = 0)).toFinset := by
      ext q
      rw [List.mem_toFinset, List.mem_toFinset, List.mem_filter, List.mem_filter, mem_chordCells]
      have e1 : (s.preChord p).gb q = s.gb q := rfl
      have e2 : (s.preChord p).bd q = s.bd q := rfl
      have e3 : block (s.preChord p).row (s.preChord p).column p.1 p.2 = block s.row s.column p.1 p.2 := rfl
      rw [e1, e2, e3, mem_block_near, decide_eq_true_eq, decide_eq_true_eq]
      constructor
      · rintro ⟨⟨a, b⟩, c, d⟩
        refine ⟨⟨a, ⟨b, ?_⟩, c⟩, d⟩
        rintro rfl
        have := hc.2.1
        omega
      · rintro ⟨⟨a, b, c⟩, d⟩
        exact ⟨⟨a, b.1⟩, c, d⟩
    rw [hset] at hcount
    exact solvedStep_open h hst ((nodup_ring s p).filter _) hs hg hf.1 hf.2.1 (.inr rfl) (k := n)
      (by rw [hf.2.2.2.2.2.2.2.2.2.2.1]; rfl) hcount.1 hcount.2

theorem RightEff.solved {s s' : MSB} {p : Pos} {r : Option Nat} (h : s.Core) (hp : p ∈ grid s.row s.column)
    (e : RightEff s p s' r) : SolvedStep s s' r := by
  have hgb := fun q => e.gb h hp q
  refine solvedStep_of_congr e.frame.1 e.frame.2.2.2.2.2.2.2.2.2.2.2.1 (fun q _ _ => ?_)
  by_cases hq : q = p
  · rw [(hgb q).2 hq]
    subst hq
    split
    · next h => rw [h]; simp
    · split
      · next h => rw [h]; simp
      · rfl
  · rw [(hgb q).1 hq]

theorem Eff.solved {s : MSB} {e : Ev} {p : Pos} {s' : MSB} {r : Option Nat} (h : s.GInv)
    (he : Eff s e p s' r) : SolvedStep s s' r := by
  cases he with
  | idle => exact solvedStep_of_congr rfl rfl (fun _ _ _ => Iff.rfl)
  | start => exact solvedStep_of_congr rfl rfl (fun _ _ _ => Iff.rfl)
  | back => exact solvedStep_of_congr rfl rfl (fun _ _ _ => Iff.rfl)
  | backClear => exact solvedStep_of_congr rfl rfl (fun _ _ _ => Iff.rfl)
  | miss => exact solvedStep_of_congr rfl rfl (fun _ _ _ => Iff.rfl)
  | unflagLast hst hp h10 h0 =>
    refine solvedStep_of_congr rfl rfl (fun q _ _ => ?_)
    have hset : bval (s.gameBoard.set p.1 p.2 10) q = if q = p then 10 else s.gb q :=
      bval_set h.core.rect hp q 10
    change bval (s.gameBoard.set p.1 p.2 10) q < 10 ↔ _
    rw [hset]
    split
    · next hq =>
      subst hq
      have := (h.pre (.inr hst)).1 q hp
      omega
    · rfl
  | preFlag m k _ _ hst _ hp hk h10 hc =>
    obtain ⟨_, hcore, e2⟩ := right_eff h (by rcases hst with h | h <;> simp [h]) (by simp) hc
    have := RightEff.solved hcore hp e2
    exact this
  | preUnflag m k _ _ hst _ hp hk hk' h10 hc =>
    obtain ⟨_, hcore, e2⟩ := right_eff (st := s.state) h (by simp [hst]) (by simp [hst]) hc
    have := RightEff.solved hcore hp e2
    exact this
  | right m _ _ hst _ hp hc =>
    obtain ⟨_, hcore, e2⟩ := right_eff (k := s.preFlagNum) (st := s.state) h (by simp [hst]) (by simp [hst]) hc
    have := RightEff.solved hcore hp e2
    exact this
  | left m _ _ hst _ _ hc =>
    obtain ⟨hp, hcore, e2⟩ := left_eff h hst hc
    have := LeftEff.solved hcore (by simp) hp e2
    exact this
  | chord m mh dec _ _ hst _ _ hc =>
    obtain ⟨hp, hg, e2⟩ := chord_eff h hc
    have := ChordEff.solved hg.core (by rcases hst with h | h <;> simp [h]) e2
    exact this

/-- nothing open: nothing solved -/
theorem open_none {v : View} {g : Board} (h : ∀ p ∈ vcells v, ¬ shown g p < 10) :
    (openIso v g).card + (openComps v g).card = 0 ∧ AllOrNone v g := by
  have hz : ∀ C ∈ comps v, ∀ z ∈ C, ¬ shown g z < 10 := fun C hC z hz =>
    h z (Finset.mem_filter.mp (comps_zero hC hz)).1
  refine ⟨?_, ?_⟩
  · rw [Nat.add_eq_zero_iff, Finset.card_eq_zero, Finset.card_eq_zero]
    constructor
    · apply Finset.filter_eq_empty_iff.mpr
      intro p hp
      exact h p (Finset.mem_filter.mp hp).1
    · ext C
      rw [mem_openComps]
      simp only [Finset.notMem_empty, iff_false]
      rintro ⟨h1, h2⟩
      obtain ⟨p, hp, rfl⟩ := mem_comps.mp h1
      have hp' : p ∈ comp v p := mem_comp.mpr ⟨hp, .refl⟩
      exact hz _ h1 p hp' (h2 p hp')
  · rintro C hC ⟨z, hz', h1⟩
    exact absurd h1 (hz C hC z hz')

/-- everything open: the whole 3BV -/
theorem open_all {v : View} {g : Board} (h : ∀ p ∈ vcells v, 0 ≤ val v p → shown g p < 10) :
    (openIso v g).card + (openComps v g).card = (isolated v).card + components (zeros v) := by
  rw [components_eq_card]
  congr 2
  · apply Finset.filter_eq_self.mpr
    intro p hp
    have := Finset.mem_filter.mp hp
    exact h p this.1 (by omega)
  · ext C
    rw [mem_openComps]
    refine ⟨fun h => h.1, fun hC => ⟨hC, fun z hz => ?_⟩⟩
    have := Finset.mem_filter.mp (comps_zero hC hz)
    exact h z this.1 (by omega)

theorem open_le (v : View) (g : Board) :
    (openIso v g).card + (openComps v g).card ≤ (isolated v).card + components (zeros v) := by
  rw [components_eq_card]
  apply Nat.add_le_add
  · exact Finset.card_le_card (Finset.filter_subset _ _)
  · exact Finset.card_le_card (fun C hC => (mem_openComps.mp hC).1)

theorem GInv.open_none {s : MSB} (h : s.GInv) (hst : s.state = .ready ∨ s.state = .preFlaging) :
    (openIso s.board s.gameBoard).card + (openComps s.board s.gameBoard).card = 0 ∧
      AllOrNone s.board s.gameBoard := by
  apply MSB.open_none
  intro p hp
  have := (h.pre hst).1 p (h.core.vcells ▸ hp)
  rw [MSB.gb_bval, ← shown_eq] at this
  omega

end MSB

theorem Reach.solvedGe {s : MSB} (h : Reach s) : s.SolvedGe := by
  induction h with
  | new hv =>
    unfold MSB.SolvedGe
    rw [((MSB.new_inv hv).open_none (.inl rfl)).1]; exact Nat.zero_le _
  | step hr hs ih => exact ((MSB.step_eff hs).solved hr.inv).1 ih
  | reset _ h0 _ =>
    unfold MSB.SolvedGe
    rw [((MSB.reset_inv h0).open_none (.inl rfl)).1]; exact Nat.zero_le _
  | load hr hst hv h1 h2 ih =>
    unfold MSB.SolvedGe
    rw [((MSB.load_inv hr.inv hst hv h1 h2).open_none hst).1]; exact Nat.zero_le _

/-- A run in which, whenever cells are opened (`Ok(2)` or `Ok(3)`), no zero cell carries a flag. -/
inductive CalmRun : MSB → Prop
  | new {v : View} : Numbered v → CalmRun (MSB.new v)
  | step {s s' : MSB} {e : Ev} {p : Pos} {r : Option Nat} : CalmRun s → s.step e p = some (s', r) →
      (r = some 2 ∨ r = some 3 → ∀ z ∈ vcells s.board, val s.board z = 0 → shown s.gameBoard z ≠ 11) →
      CalmRun s'
  | reset {s : MSB} : CalmRun s → 0 < s.row → CalmRun s.reset
  | load {s : MSB} {v : View} : CalmRun s → (s.state = .ready ∨ s.state = .preFlaging) → Numbered v →
      v.row = s.row → v.col = s.column → CalmRun { s with board := v }

theorem CalmRun.reach {s : MSB} (h : CalmRun s) : Reach s := by
  induction h with
  | new hv => exact .new hv
  | step _ hs _ ih => exact .step ih hs
  | reset _ h0 ih => exact .reset ih h0
  | load _ a b c d ih => exact .load ih a b c d

theorem CalmRun.solvedEq {s : MSB} (h : CalmRun s) : s.SolvedEq := by
  induction h with
  | new hv => exact (MSB.new_inv hv).open_none (.inl rfl)
  | step hr hs hf ih =>
    refine ((MSB.step_eff hs).solved hr.reach.inv).2 (fun h z hz => ?_) ih
    have := Finset.mem_filter.mp hz
    exact hf h z this.1 this.2
  | reset _ h0 _ => exact (MSB.reset_inv h0).open_none (.inl rfl)
  | @load s v hr hst hv h1 h2 ih =>
    have h3 := (MSB.load_inv hr.reach.inv hst hv h1 h2).open_none hst
    refine ⟨?_, h3.2⟩
    rw [h3.1, ← (hr.reach.inv.open_none hst).1]
    exact ih.1

end Ms
