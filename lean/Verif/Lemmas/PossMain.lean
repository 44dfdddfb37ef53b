import Verif.Lemmas.PossBoard

/-! # `cal_possibility`: the main computation -/

namespace Ms
open Spec BigNumber

theorem value_ne_zero_iff (n : BigNumber) : n.value ≠ 0 ↔ n.a ≠ 0 := by
  unfold value
  have : (10 : ℚ) ^ n.b ≠ 0 := zpow_ne_zero _ (by norm_num)
  constructor
  · intro h h2; rw [h2] at h; simp at h
  · intro h; exact mul_ne_zero h this

/-- The computed sum over the choices is the sum over all leftover mines. -/
theorem leftover_sum {T : List (List (Nat × Nat))} {los his : List Nat} (unknown m : Nat) (c : Nat → ℚ)
    (hb : ∀ k, waysF T k ≠ 0 → los.sum ≤ k ∧ k ≤ his.sum) {ways : List ℚ}
    (hw : ∀ u, u < (rng (m - min his.sum m) (min (m - los.sum) unknown + 1)).length →
      ways.getD u 0 = c ((rng (m - min his.sum m) (min (m - los.sum) unknown + 1)).getD u 0)) :
    ((List.range (rng (m - min his.sum m) (min (m - los.sum) unknown + 1)).length).map fun u =>
      if (rng (m - min his.sum m) (min (m - los.sum) unknown + 1)).getD u 0 ≤ m then
        (waysF T (m - (rng (m - min his.sum m) (min (m - los.sum) unknown + 1)).getD u 0) : ℚ) * ways.getD u 0 else 0).sum =
    ((List.range (unknown + 1)).map fun u => if u ≤ m then c u * (waysF T (m - u) : ℚ) else 0).sum := by
  have e : ((List.range (rng (m - min his.sum m) (min (m - los.sum) unknown + 1)).length).map fun u =>
      if (rng (m - min his.sum m) (min (m - los.sum) unknown + 1)).getD u 0 ≤ m then
        (waysF T (m - (rng (m - min his.sum m) (min (m - los.sum) unknown + 1)).getD u 0) : ℚ) * ways.getD u 0 else 0) =
      (rng (m - min his.sum m) (min (m - los.sum) unknown + 1)).map fun u => if u ≤ m then c u * (waysF T (m - u) : ℚ) else 0 := by
    rw [← range_map_getD (rng (m - min his.sum m) (min (m - los.sum) unknown + 1)) 0]
    apply List.map_congr_left
    intro u hu
    rw [List.mem_range] at hu
    rw [hw u hu]
    split
    · ring
    · rfl
  rw [e]
  apply rest_sum
  intro u _ hne
  by_cases hu : u ≤ m
  · rw [if_pos hu] at hne
    have h1 : waysF T (m - u) ≠ 0 := by
      intro hz; apply hne; rw [hz]; simp
    exact ⟨hu, hb _ h1⟩
  · rw [if_neg hu] at hne; exact absurd rfl hne

theorem cast_list_sum' (l : List Nat) : ((l.sum : Nat) : ℚ) = (l.map fun x : Nat => (x : ℚ)).sum := by
  induction l with
  | nil => simp
  | cons a l ih => simp [ih]

theorem mapM_forall₂ {β γ : Type} {f : β → Option γ} {R : β → γ → Prop} : ∀ (l : List β),
    (∀ x ∈ l, ∃ y, f x = some y ∧ R x y) → ∃ ys, l.mapM f = some ys ∧ List.Forall₂ R l ys := by
  intro l
  induction l with
  | nil => intro _; exact ⟨[], by simp, .nil⟩
  | cons x l ih =>
    intro h
    obtain ⟨y, h1, h2⟩ := h x (by simp)
    obtain ⟨ys, h3, h4⟩ := ih fun x hx => h x (by simp [hx])
    exact ⟨y :: ys, by rw [List.mapM_cons, h1, h3]; rfl, .cons h2 h4⟩

/-- The probabilities of the cells of one block. -/
theorem possBlock_spec {tabs : List (List EnumLine)} {O : List (List BigNumber)} {T : BigNumber} {i : Nat} {B : Block}
    (hB : Block01 B) (P : Pos → Option ℚ)
    (hcell : ∀ c, c < (reps B).length → ∃ n, possCell tabs O i c = some n ∧
      ∀ q ∈ grpSet B ((reps B).getD c 0), n.divBig T = P q) :
    ∃ L, possBlock tabs O T i B = some L ∧ (L.map fun e => e.1).Perm B.x ∧ ∀ e ∈ L, e.2 = P e.1 := by
  have hlen : (combine B).groups.length = (reps B).length := by rw [combine_eq hB]; simp
  obtain ⟨Ls, h1, h2⟩ := mapM_forall₂
    (R := fun c (L : List (Pos × Option ℚ)) => (L.map fun e => e.1) =
      ((combine B).groups.getD c []).map (fun k => B.x.getD k (0, 0)) ∧ ∀ e ∈ L, e.2 = P e.1)
    (f := fun c => do
      let n ← possCell tabs O i c
      pure (((combine B).groups.getD c []).map fun k => (B.x.getD k (0, 0), n.divBig T)))
    (List.range (combine B).groups.length) (by
      intro c hc
      rw [List.mem_range, hlen] at hc
      obtain ⟨n, n1, n2⟩ := hcell c hc
      refine ⟨_, by rw [n1]; rfl, ?_, ?_⟩
      · rw [List.map_map]; rfl
      · intro e he
        obtain ⟨k, hk, rfl⟩ := List.mem_map.mp he
        simp only
        apply n2
        rw [combine_groups_getD hB hc] at hk
        exact mem_grpSet.mpr ⟨k, hk, rfl⟩)
  refine ⟨Ls.flatten, by unfold possBlock; rw [h1]; rfl, ?_, ?_⟩
  · have key : ∀ (cs : List Nat) (Ls : List (List (Pos × Option ℚ))), List.Forall₂ (fun c (L : List (Pos × Option ℚ)) =>
        (L.map fun e => e.1) = ((combine B).groups.getD c []).map (fun k => B.x.getD k (0, 0)) ∧ ∀ e ∈ L, e.2 = P e.1) cs Ls →
        (Ls.flatten.map fun e => e.1) = (cs.map fun c => (combine B).groups.getD c []).flatten.map fun k => B.x.getD k (0, 0) := by
      intro cs Ls h
      induction h with
      | nil => rfl
      | cons h1 _ ih =>
        rw [List.flatten_cons, List.map_append, h1.1, ih, List.map_cons, List.flatten_cons, List.map_append]
    have hg1 := range_map_getD (combine B).groups [] (fun x : List Nat => x)
    rw [List.map_id'] at hg1
    rw [key _ _ h2, hg1]
    have hp : ((combine B).groups.flatten).Perm (List.range B.x.length) := by
      rw [combine_eq hB]; exact groups_perm B
    refine (hp.map _).trans ?_
    have hg2 := range_map_getD B.x (0, 0) (fun x : Pos => x)
    rw [List.map_id'] at hg2
    rw [hg2]
  · intro e he
    obtain ⟨L, hL, heL⟩ := List.mem_flatten.mp he
    obtain ⟨n, hn, rfl⟩ := List.getElem_of_mem hL
    have := List.forall₂_iff_get.mp h2
    exact (this.2 n (by rw [this.1]; exact hn) hn).2 e heL

open Classical in
theorem chance_of_value {g : Board} {m : Nat} {q : Pos} {n T : BigNumber} (hT : T.value = (layouts g m).card)
    (hn : n.value = ((layouts g m).filter fun A => q ∈ A).card) : n.divBig T = chance g m q := by
  unfold chance
  by_cases h : (layouts g m).card = 0
  · rw [if_pos h]
    unfold divBig
    rw [if_pos]
    by_contra hc
    have := (value_ne_zero_iff T).mpr hc
    rw [hT, h] at this
    simp at this
  · rw [if_neg h, divBig_spec n T ((value_ne_zero_iff T).mp (by rw [hT]; exact_mod_cast h)), hT, hn]

theorem flatten_perm (S : Sys) (Ls : List (List (Pos × Option ℚ))) (P : Pos → Option ℚ) :
    ∀ (k : Nat), List.Forall₂ (fun (Bi : Block × Nat) (L : List (Pos × Option ℚ)) =>
      (L.map fun e => e.1).Perm Bi.1.x ∧ ∀ e ∈ L, e.2 = P e.1) (S.zipIdx k) Ls →
    (Ls.flatten.map fun e => e.1).Perm (sysCells S) ∧ ∀ e ∈ Ls.flatten, e.2 = P e.1 := by
  induction S generalizing Ls with
  | nil => intro k h; rw [List.zipIdx_nil] at h; cases h; simp [sysCells]
  | cons B S ih =>
    intro k h
    rw [List.zipIdx_cons] at h
    cases h with
    | cons h1 h2 =>
      obtain ⟨i1, i2⟩ := ih _ (k + 1) h2
      refine ⟨?_, fun e he => ?_⟩
      · rw [List.flatten_cons, List.map_append]
        exact h1.1.append i1
      · rw [List.flatten_cons, List.mem_append] at he
        rcases he with he | he
        · exact h1.2 e he
        · exact i2 e he

open Classical in
theorem poss_main {g : Board} {S : Sys} (h : SysOf g (numberCells g) S) (hc : ∃ τ, ReachConsistent g τ) :
    ∃ tabs los his, possTables (smallBlocks S) = some (.ok tabs) ∧
      (tabs.mapM fun t => (t.map fun l => l.1).min?) = some los ∧
      (tabs.mapM fun t => (t.map fun l => l.1).max?) = some his ∧
      IsLeast {k | (layouts g k).Nonempty} los.sum ∧
      IsGreatest {k | (layouts g k).Nonempty} (his.sum + (otherCells g S).card) ∧
      los.sum ≤ his.sum ∧
      ∀ m, los.sum ≤ m → ∃ ways O T ps u,
        (rng (m - min his.sum m) (min (m - los.sum) (otherCells g S).card + 1)).mapM
          (fun k => bigC (otherCells g S).card k) = some ways ∧
        possOther tabs (rng (m - min his.sum m) (min (m - los.sum) (otherCells g S).card + 1)) ways m = some O ∧
        possAll tabs ways O = some T ∧
        (smallBlocks S).zipIdx.mapM (fun Bi => possBlock tabs O T Bi.2 Bi.1) = some ps ∧
        possRest tabs (rng (m - min his.sum m) (min (m - los.sum) (otherCells g S).card + 1)) ways O = some u ∧
        (ps.flatten.map fun e => e.1).Perm (sysCells (smallBlocks S)) ∧
        (∀ e ∈ ps.flatten, e.2 = chance g m e.1) ∧
        (∀ q ∈ otherCells g S, (u.divBig T).map (fun p => p / ((otherCells g S).card : ℚ)) = chance g m q) := by
  have hok := small_enumOK h hc
  have hnd := small_sub h.nodup
  obtain ⟨tabs, los, his, t1, t2, t3, t4, t5, t6, t7, t8⟩ := possTables_spec (smallBlocks S) hok
    (fun B hB => (mem_smallBlocks.mp hB).2) (by
      obtain ⟨τ, hτ⟩ := hc
      exact fun B hB => ⟨τ, reach_solves h hτ B hB⟩)
  have hrep := represents_all t2
  have hdis := famOf_disjoint hnd
  have hod := other_disjoint g S
  have hbound := waysF_bounds _ _ _ t5 t6
  -- the number of layouts
  have hcount : ∀ m, (layouts g m).card = ((List.range ((otherCells g S).card + 1)).map fun u => if u ≤ m then
      (otherCells g S).card.choose u * waysF (plainTabs tabs) (m - u) else 0).sum := by
    intro m
    rw [layouts_eq h]
    refine Eq.trans (by congr!) ((waysF_total hrep hdis (otherCells g S) hod (fun _ => True) m).trans ?_)
    refine congrArg List.sum (List.map_congr_left fun u _ => ?_)
    have := powerset_filter_card (otherCells g S) u
    simp only [and_true]
    rw [← this]
  have hpos : ∀ m, (layouts g m).Nonempty ↔ ∃ u, u ≤ (otherCells g S).card ∧ u ≤ m ∧ waysF (plainTabs tabs) (m - u) ≠ 0 := by
    intro m
    rw [← Finset.card_pos, hcount]
    constructor
    · intro hp
      by_contra hcon
      push Not at hcon
      have : ((List.range ((otherCells g S).card + 1)).map fun u => if u ≤ m then
          (otherCells g S).card.choose u * waysF (plainTabs tabs) (m - u) else 0).sum = 0 := by
        apply List.sum_eq_zero
        intro x hx
        obtain ⟨u, hu, rfl⟩ := List.mem_map.mp hx
        rw [List.mem_range] at hu
        by_cases hum : u ≤ m
        · rw [if_pos hum, hcon u (by omega) hum, Nat.mul_zero]
        · rw [if_neg hum]
      omega
    · rintro ⟨u, h1, h2, h3⟩
      rw [Nat.pos_iff_ne_zero]
      intro hz
      have := List.sum_eq_zero_iff.mp hz _ (List.mem_map.mpr ⟨u, List.mem_range.mpr (by omega), rfl⟩)
      rw [if_pos h2, Nat.mul_eq_zero] at this
      rcases this with h4 | h4
      · exact absurd h4 (Nat.pos_iff_ne_zero.mp (Nat.choose_pos h1))
      · exact h3 h4
  have hloW := waysF_attained _ _ t7
  have hhiW := waysF_attained _ _ t8
  refine ⟨tabs, los, his, t1, t3, t4, ?_, ?_, (hbound _ hloW).2, ?_⟩
  · refine ⟨(hpos _).mpr ⟨0, by omega, by omega, by simpa using hloW⟩, ?_⟩
    intro k hk
    obtain ⟨u, -, h2, h3⟩ := (hpos k).mp hk
    have := hbound _ h3
    omega
  · refine ⟨(hpos _).mpr ⟨(otherCells g S).card, le_rfl, by omega, by simpa using hhiW⟩, ?_⟩
    intro k hk
    obtain ⟨u, h1, h2, h3⟩ := (hpos k).mp hk
    have := hbound _ h3
    omega
  · intro m hm
    set I := otherCells g S with hI
    set unk := rng (m - min his.sum m) (min (m - los.sum) I.card + 1) with hunk
    obtain ⟨ways, w1, w2, w3⟩ := ways_spec I.card unk (by
      intro k hk
      rw [hunk, mem_rng] at hk
      omega)
    have hcho := choices_ok tabs (m - min his.sum m) (min (m - los.sum) I.card + 1) m
    rw [← hunk] at hcho
    obtain ⟨O, o1, o2, o3⟩ := possOther_spec ways hcho
    obtain ⟨T, T1, T2⟩ := possAll_spec w2 hcho o3
    obtain ⟨u, u1, u2⟩ := possRest_spec hcho o3
    -- values of the ways as rationals
    have hwv : ∀ i, i < unk.length → (ways.map BigNumber.value).getD i 0 = (I.card.choose (unk.getD i 0) : ℚ) := by
      intro i hi
      rw [← w3 i hi]
      simp only [List.getD_eq_getElem?_getD, List.getElem?_map]
      rw [List.getElem?_eq_getElem (by omega)]
      rfl
    have hwv2 : ∀ i, (ways.getD i ⟨0, 0⟩).value = (ways.map BigNumber.value).getD i 0 := by
      intro i
      simp only [List.getD_eq_getElem?_getD, List.getElem?_map]
      cases ways[i]? with
      | none => simp [value]
      | some x => rfl
    have hTv : T.value = (layouts g m).card := by
      rw [T2]
      simp only [hwv2]
      rw [choices_sum tabs unk m fun i => (ways.map BigNumber.value).getD i 0, hunk,
        leftover_sum I.card m (fun x => (I.card.choose x : ℚ)) hbound (by rw [← hunk]; exact hwv), hcount m,
        cast_list_sum', List.map_map]
      refine congrArg List.sum (List.map_congr_left fun x _ => ?_)
      simp only [Function.comp_def]
      split
      · push_cast; ring
      · simp
    have hlen : tabs.length = (smallBlocks S).length := t2.length_eq
    have hblock : ∀ Bi ∈ (smallBlocks S).zipIdx, ∃ L, possBlock tabs O T Bi.2 Bi.1 = some L ∧
        ((L.map fun e => e.1).Perm Bi.1.x ∧ ∀ e ∈ L, e.2 = chance g m e.1) := by
      rintro ⟨B, i⟩ hBi
      have hget : (smallBlocks S)[i]? = some B := List.mk_mem_zipIdx_iff_getElem?.mp hBi
      obtain ⟨hil, hib⟩ := List.getElem?_eq_some_iff.mp hget
      have hBm : B ∈ smallBlocks S := by rw [← hib]; exact List.getElem_mem _
      have hline : LinesOK B (tabs.getD i []) := by
        have := (List.forall₂_iff_get.mp t2).2 i (by omega) hil
        rw [List.getD_eq_getElem?_getD, List.getElem?_eq_getElem (by omega)]
        simp only [List.get_eq_getElem, hib] at this
        exact this.2
      apply possBlock_spec (hok B hBm).rect
      intro c hcc
      obtain ⟨n, n1, n2⟩ := possCell_spec o2 hcho o3 (i := i) (by omega) c
      refine ⟨n, n1, fun q hq => chance_of_value hTv ?_⟩
      have hqB : q ∈ B.x := by
        obtain ⟨k, hk, rfl⟩ := mem_grpSet.mp hq
        have hrc : (reps B).getD c 0 < B.x.length := by
          have hm : (reps B).getD c 0 ∈ reps B := by
            rw [List.getD_eq_getElem?_getD, List.getElem?_eq_getElem hcc]; exact List.getElem_mem _
          exact (mem_reps.mp hm).1
        have hkl := ((mem_grp hrc).mp hk).1
        rw [List.getD_eq_getElem?_getD, List.getElem?_eq_getElem hkl]
        exact List.getElem_mem _
      have hrep2 := forall₂_set hrep i (b := (B.x.toFinset, fun A => SolvesB (fun p => decide (p ∈ A)) B ∧ q ∈ A))
        (cell_represents hline hcc hq)
      have hmap : (((famOf (smallBlocks S)).set i
          (B.x.toFinset, fun A => SolvesB (fun p => decide (p ∈ A)) B ∧ q ∈ A)).map fun x => x.1) =
          (famOf (smallBlocks S)).map fun x => x.1 := by
        rw [List.map_set]
        apply List.ext_getElem
        · simp
        · intro n h1 h2
          rw [List.getElem_set]
          split
          · rename_i h; subst h
            simp [famOf, hib]
          · rfl
      have hb2 : ∀ k, waysF (cellTabs tabs i c) k ≠ 0 → los.sum ≤ k ∧ k ≤ his.sum := by
        intro k hk
        apply hbound
        rw [waysF_card _ _ hrep hdis k]
        unfold cellTabs at hk
        rw [waysF_card _ _ hrep2 (by rw [hmap]; exact hdis) k, hmap] at hk
        intro hz
        apply hk
        rw [Finset.card_eq_zero] at hz ⊢
        rw [Finset.filter_eq_empty_iff] at hz ⊢
        intro A hA hcon
        apply hz hA
        refine ⟨hcon.1, fun x hx => ?_⟩
        obtain ⟨n, hn, rfl⟩ := List.getElem_of_mem hx
        have h3 := hcon.2 _ (List.getElem_mem (l := (famOf (smallBlocks S)).set i
          (B.x.toFinset, fun A => SolvesB (fun p => decide (p ∈ A)) B ∧ q ∈ A)) (n := n) (by simpa using hn))
        by_cases hni : i = n
        · subst hni
          rw [List.getElem_set_self] at h3
          simp only [famOf, List.getElem_map, hib]
          exact h3.1
        · rw [List.getElem_set_ne hni] at h3
          exact h3
      rw [n2]
      simp only [hwv2]
      rw [choices_sum_cell tabs unk m (fun i => (ways.map BigNumber.value).getD i 0) i c (by omega), hunk,
        leftover_sum I.card m (fun x => (I.card.choose x : ℚ)) hb2 (by rw [← hunk]; exact hwv),
        layouts_filter_eq h m hget hqB]
      have hw := waysF_total hrep2 (by rw [hmap]; exact hdis) I (by rw [hmap]; exact hod) (fun _ => True) m
      refine Eq.trans ?_ (congrArg (fun n : Nat => (n : ℚ)) (hw.symm.trans (by congr!)))
      rw [cast_list_sum', List.map_map]
      refine congrArg List.sum (List.map_congr_left fun x _ => ?_)
      simp only [Function.comp_def, and_true]
      have := powerset_filter_card I x
      rw [← this]
      unfold cellTabs
      split
      · push_cast; ring
      · simp
    obtain ⟨ps, p1, p2⟩ := mapM_forall₂ _ hblock
    obtain ⟨p3, p4⟩ := flatten_perm _ _ _ 0 p2
    refine ⟨ways, O, T, ps, u, w1, o1, T1, p1, u1, p3, p4, fun q hq => ?_⟩
    -- the cells away from the numbers
    have huv : u.value = ((List.range (I.card + 1)).map fun x => if x ≤ m then
        ((I.card.choose x : ℚ) * x) * (waysF (plainTabs tabs) (m - x) : ℚ) else 0).sum := by
      rw [u2]
      have e : ∀ s ∈ possChoices tabs unk m, allProd tabs s * ((ways.getD (s.getD tabs.length 0) ⟨0, 0⟩).value *
          (unk.getD (s.getD tabs.length 0) 0 : ℚ)) = allProd tabs s * ((List.range unk.length).map fun i =>
            (ways.map BigNumber.value).getD i 0 * (unk.getD i 0 : ℚ)).getD (s.getD tabs.length 0) 0 := by
        intro s hs
        congr 1
        have := (hcho s hs).last
        conv_rhs => rw [List.getD_eq_getElem?_getD, List.getElem?_map, List.getElem?_range this]
        simp only [Option.map_some, Option.getD_some]
        rw [hwv2]
      rw [List.map_congr_left e, choices_sum tabs unk m (fun k => ((List.range unk.length).map fun i =>
        (ways.map BigNumber.value).getD i 0 * (unk.getD i 0 : ℚ)).getD k 0), hunk,
        leftover_sum I.card m (fun x => (I.card.choose x : ℚ) * x) hbound]
      intro i hi
      rw [← hunk] at hi ⊢
      rw [← hwv i hi, List.getD_eq_getElem?_getD, List.getElem?_map, List.getElem?_range hi]
      rfl
    have hfil : ((((layouts g m).filter fun A => q ∈ A).card : ℚ)) * (I.card : ℚ) = u.value := by
      rw [layouts_filter_rest h m hq]
      have hw := waysF_total hrep hdis I hod (fun A => q ∈ A) m
      have hw' : (((I ∪ unionL ((famOf (smallBlocks S)).map fun x => x.1)).powerset.filter fun A =>
          A.card = m ∧ q ∈ A ∩ I ∧ ∀ x ∈ famOf (smallBlocks S), x.2 (A ∩ x.1)).card : ℚ) = _ :=
        congrArg (fun n : Nat => (n : ℚ)) (Eq.trans (by congr!) hw)
      rw [hw', cast_list_sum', List.map_map, huv, ← List.sum_map_mul_right]
      refine congrArg List.sum (List.map_congr_left fun x _ => ?_)
      simp only [Function.comp_def]
      have := card_mem_choose I q hq x
      split
      · have h2 : (((I.powerset.filter fun A => A.card = x ∧ q ∈ A).card : ℚ)) * (I.card : ℚ) = (I.card.choose x : ℚ) * x := by
          exact_mod_cast (Eq.trans (by congr!) this)
        push_cast
        rw [← h2, mul_right_comm]
        congr!
      · simp
    have hIpos : (I.card : ℚ) ≠ 0 := by
      have := Finset.card_pos.mpr ⟨q, hq⟩
      exact_mod_cast Nat.pos_iff_ne_zero.mp this
    unfold chance
    by_cases hz : (layouts g m).card = 0
    · rw [if_pos hz]
      unfold divBig
      rw [if_pos]
      · rfl
      · by_contra hcon
        have := (value_ne_zero_iff T).mpr hcon
        rw [hTv, hz] at this
        simp at this
    · rw [if_neg hz, divBig_spec u T ((value_ne_zero_iff T).mp (by rw [hTv]; exact_mod_cast hz)), Option.map_some, hTv, ← hfil]
      congr 1
      field_simp

end Ms
