import Verif.Model.Adjust
import Verif.Lemmas.GuessChain
import Verif.Properties.Laymine

/-! # Lemmas for `laymine_solvable_adjust` -/

namespace Ms
open Spec

/-! ## the number of mines of a round -/

theorem roundMines_le {n e i : Nat} (he : e ≤ n) (hi : i ≤ n) : roundMines n e i ≤ n := by
  unfold roundMines
  split_ifs <;> omega

/-! ## laying an area -/

/-- How many cells of the board hold the value `v`. -/
def cellsWith (r c : Nat) (v : Int) (b : Board) : Nat := ((grid r c).filter fun p => bval b p = v).card

theorem setZip_spec {r c : Nat} : ∀ (ps : List Pos) (vs : List Int) (b : Board), Rect b r c → ps.length = vs.length → ps.Nodup →
    (∀ p ∈ ps, p ∈ grid r c) →
    Rect ((ps.zip vs).foldl (fun b pv => b.set pv.1.1 pv.1.2 pv.2) b) r c ∧
    (∀ q, q ∉ ps → bval ((ps.zip vs).foldl (fun b pv => b.set pv.1.1 pv.1.2 pv.2) b) q = bval b q) ∧
    ps.map (bval ((ps.zip vs).foldl (fun b pv => b.set pv.1.1 pv.1.2 pv.2) b)) = vs := by
  intro ps
  induction ps with
  | nil => intro vs b hb hl _ _; cases vs with
    | nil => exact ⟨hb, fun q _ => rfl, rfl⟩
    | cons v vs => simp at hl
  | cons p ps ih =>
    intro vs b hb hl hnd hg
    cases vs with
    | nil => simp at hl
    | cons v vs =>
      rw [List.zip_cons_cons, List.foldl_cons]
      have hp := mem_grid.mp (hg p (by simp))
      have hb' : Rect (b.set p.1 p.2 v) r c := rect_set hb _ _ _
      obtain ⟨h1, h2, h3⟩ := ih vs _ hb' (by simpa using hl) (List.nodup_cons.mp hnd).2 (fun q hq => hg q (by simp [hq]))
      refine ⟨h1, fun q hq => ?_, ?_⟩
      · rw [h2 q (fun h => hq (by simp [h]))]
        unfold bval
        rw [get_set hb hp.1 hp.2]
        rw [if_neg]
        rintro ⟨e1, e2⟩
        exact hq (by rw [show q = p from Prod.ext e1 e2]; simp)
      · rw [List.map_cons, h3, h2 p (List.nodup_cons.mp hnd).1]
        congr 1
        unfold bval
        rw [get_set hb hp.1 hp.2, if_pos ⟨rfl, rfl⟩]

/-- `b` is `b0` with mines and safe cells laid on `ps`, `m` of them mines. -/
structure LaidOn (r c : Nat) (b0 b : Board) (ps : List Pos) (m : Nat) : Prop where
  rect : Rect b r c
  out : ∀ q, q ∉ ps → bval b q = bval b0 q
  vals : (ps.map (bval b)).Perm (unshuffled ps.length m)

theorem LaidOn.count {r c : Nat} {b0 b : Board} {ps : List Pos} {m : Nat} (h : LaidOn r c b0 b ps m) (hnd : ps.Nodup)
    (hg : ∀ p ∈ ps, p ∈ grid r c) (h0 : ∀ p ∈ ps, bval b0 p = -10) (v : Int) :
    cellsWith r c v b + (if v = -10 then ps.length else 0) = cellsWith r c v b0 + (unshuffled ps.length m).count v := by
  have key : ∀ b' : Board, cellsWith r c v b' =
      (ps.map (bval b')).count v + (((grid r c).filter fun p => bval b' p = v) \ ps.toFinset).card := by
    intro b'
    unfold cellsWith
    rw [← Finset.card_inter_add_card_sdiff ((grid r c).filter fun p => bval b' p = v) ps.toFinset]
    congr 1
    rw [List.count_eq_countP, List.countP_map, List.countP_eq_length_filter, ← List.toFinset_card_of_nodup (hnd.filter _)]
    congr 1
    ext p
    simp only [Finset.mem_inter, Finset.mem_filter, List.mem_toFinset, List.mem_filter, Function.comp, beq_iff_eq]
    constructor
    · rintro ⟨⟨-, h1⟩, h2⟩; exact ⟨h2, h1⟩
    · rintro ⟨h2, h1⟩; exact ⟨⟨hg p h2, h1⟩, h2⟩
  have hout : (((grid r c).filter fun p => bval b p = v) \ ps.toFinset) =
      (((grid r c).filter fun p => bval b0 p = v) \ ps.toFinset) := by
    ext p
    simp only [Finset.mem_sdiff, Finset.mem_filter, List.mem_toFinset]
    constructor
    · rintro ⟨⟨h1, h2⟩, h3⟩; exact ⟨⟨h1, by rw [← h.out p h3]; exact h2⟩, h3⟩
    · rintro ⟨⟨h1, h2⟩, h3⟩; exact ⟨⟨h1, by rw [h.out p h3]; exact h2⟩, h3⟩
  rw [key b, key b0, hout, h.vals.count_eq]
  have e : (ps.map (bval b0)).count v = if v = -10 then ps.length else 0 := by
    rw [List.map_congr_left (g := fun _ => (-10 : Int)) h0, List.map_const', List.count_replicate]
    by_cases hv : v = -10
    · simp [hv]
    · rw [if_neg hv, if_neg (by simpa using fun h => hv h.symm)]
  rw [e]
  omega

theorem adjustArea_laid {r c : Nat} {sh : List Int → List Int} (hsh : ∀ l, (sh l).Perm l) {b0 b : Board} {area : List (List Pos)}
    {m : Nat} (hb : Rect b r c) (hout : ∀ q, q ∉ area.flatten → bval b q = bval b0 q) (hnd : area.flatten.Nodup)
    (hg : ∀ p ∈ area.flatten, p ∈ grid r c) (hm : m ≤ area.flatten.length) :
    LaidOn r c b0 (adjustArea sh b area m) area.flatten m := by
  have hp := hsh (unshuffled area.flatten.length m)
  have hlen : (unshuffled area.flatten.length m).length = area.flatten.length := by
    simp only [unshuffled, List.length_append, List.length_replicate]; omega
  obtain ⟨h1, h2, h3⟩ := setZip_spec area.flatten (sh (unshuffled area.flatten.length m)) b hb (by
    rw [hp.length_eq, hlen]) hnd hg
  exact ⟨h1, fun q hq => by rw [← hout q hq]; exact h2 q hq, by
    show (area.flatten.map (bval (List.foldl _ _ _))).Perm _
    rw [h3]; exact hp⟩

/-! ## the invariant of `adjust_step` -/

/-- A board under construction with `r` mines and `rn` safe cells to come, `M` mines in total. -/
structure Partial (R C M : Nat) (b : Board) (r rn : Nat) : Prop where
  rect : Rect b R C
  vals : ∀ p ∈ grid R C, bval b p = 0 ∨ bval b p = -1 ∨ bval b p = -10
  open_ : cellsWith R C (-10) b = r + rn
  mines : cellsWith R C (-1) b + r = M

/-- What was laid stays. -/
def Grown (R C : Nat) (b b' : Board) : Prop := ∀ p ∈ grid R C, bval b p ≠ -10 → bval b' p = bval b p

/-- The board returned with success. -/
structure Finished (R C M : Nat) (b b' : Board) : Prop where
  ne : b' ≠ []
  rect : Rect b' R C
  vals : ∀ p ∈ grid R C, bval b' p = 0 ∨ bval b' p = -1 ∨ bval b' p = -10
  grown : Grown R C b b'
  enough : M ≤ cellsWith R C (-1) b' + cellsWith R C (-10) b'

theorem LaidOn.partial {R C M : Nat} {b0 b : Board} {ps : List Pos} {m r rn : Nat} (h : LaidOn R C b0 b ps m)
    (hp : Partial R C M b0 r rn) (hnd : ps.Nodup) (hg : ∀ p ∈ ps, p ∈ grid R C) (h0 : ∀ p ∈ ps, bval b0 p = -10)
    (hm : m ≤ ps.length) (h1 : m ≤ r) (h2 : ps.length - m ≤ rn) :
    Partial R C M b (r - m) (rn - (ps.length - m)) ∧ Grown R C b0 b := by
  have c1 := h.count hnd hg h0 (-10)
  have c2 := h.count hnd hg h0 (-1)
  have e1 : (unshuffled ps.length m).count (-10) = 0 := by
    rw [List.count_eq_zero]; simp [unshuffled]
  have e2 : (unshuffled ps.length m).count (-1) = m := by
    unfold unshuffled
    rw [List.count_append, List.count_replicate, List.count_replicate]
    simp
  have g1 := hp.open_
  have g2 := hp.mines
  rw [if_pos rfl, e1] at c1
  rw [if_neg (by decide), e2] at c2
  refine ⟨⟨h.rect, fun p hpg => ?_, by omega, by omega⟩, fun p hpg hne => ?_⟩
  · by_cases hps : p ∈ ps
    · have : bval b p ∈ unshuffled ps.length m := h.vals.mem_iff.mp (List.mem_map.mpr ⟨p, hps, rfl⟩)
      unfold unshuffled at this
      rw [List.mem_append] at this
      rcases this with h | h
      · exact .inl (List.eq_of_mem_replicate h)
      · exact .inr (.inl (List.eq_of_mem_replicate h))
    · rw [h.out p hps]; exact hp.vals p hpg
  · exact h.out p fun hps => hne (h0 p hps)

/-! ## the refitted system -/

theorem lhs_count (σ : Pos → Bool) : ∀ (cs : List Int) (xs : List Pos), cs.length = xs.length → (∀ c ∈ cs, c = 0 ∨ c = 1) →
    lhs σ cs xs = (((List.range cs.length).filter fun a => decide (cs.getD a 0 = 1) && σ (xs.getD a (0, 0))).length : Nat) := by
  intro cs
  induction cs with
  | nil => intro xs h _; simp [lhs]
  | cons a cs ih =>
    intro xs h h01
    cases xs with
    | nil => simp at h
    | cons x xs =>
      have h2 := ih xs (by simpa using h) (fun c hc => h01 c (by simp [hc]))
      have e : lhs σ (a :: cs) (x :: xs) = (if σ x = true then a else 0) + lhs σ cs xs := by simp [lhs]
      rw [e, h2, List.length_cons, List.range_succ_eq_map, List.filter_cons, List.filter_map, List.getD_cons_zero, List.getD_cons_zero]
      have hc : ((fun k => decide ((a :: cs).getD k 0 = 1) && σ ((x :: xs).getD k (0, 0))) ∘ Nat.succ) =
          fun k => decide (cs.getD k 0 = 1) && σ (xs.getD k (0, 0)) := by
        funext k; simp
      rw [hc]
      rcases h01 a (by simp) with rfl | rfl
      · simp
      · by_cases hx : σ x = true
        · simp [hx]; omega
        · simp [hx]

theorem refit_solves {b bg : Board} {B : Block} (h : Block01 B) :
    SolvesB (fun p => decide (b.get p.1 p.2 = -1) && decide (bg.get p.1 p.2 ≠ 11)) (refitBlock b bg B) := by
  intro row hrow
  unfold refitBlock at hrow ⊢
  simp only [List.mem_map] at hrow ⊢
  obtain ⟨r0, hr0, rfl⟩ := hrow
  have h1 := h r0 hr0
  simp only
  rw [lhs_count _ _ _ h1.1 h1.2]
  have hhead : (B.rows.headD ([], 0)).1.length = r0.1.length := by
    cases hB : B.rows with
    | nil => rw [hB] at hr0; simp at hr0
    | cons q qs => rw [List.headD_cons, (h q (by rw [hB]; simp)).1, h1.1]
  rw [hhead]

theorem refit_group {r c : Nat} {S T : Sys} {b bg : Board} (hT : GroupOK r c S T) :
    GroupOK r c (T.map (refitBlock b bg)) (T.map (refitBlock b bg)) ∧ (∃ σ, Solves σ (T.map (refitBlock b bg))) ∧
    sysCells (T.map (refitBlock b bg)) = sysCells T := by
  have hcells : sysCells (T.map (refitBlock b bg)) = sysCells T := by
    unfold sysCells
    rw [List.flatMap_map]
    rfl
  have hrow : ∀ {B : Block} {q : List Int × Int}, q ∈ (refitBlock b bg B).rows → ∃ q' ∈ B.rows, q.1 = q'.1 := by
    intro B q hq
    unfold refitBlock at hq
    simp only [List.mem_map] at hq
    obtain ⟨q', h1, rfl⟩ := hq
    exact ⟨q', h1, rfl⟩
  have hrow' : ∀ {B : Block} {q : List Int × Int}, q ∈ B.rows → ∃ q' ∈ (refitBlock b bg B).rows, q'.1 = q.1 := by
    intro B q hq
    unfold refitBlock
    simp only [List.mem_map]
    exact ⟨_, ⟨q, hq, rfl⟩, rfl⟩
  refine ⟨⟨⟨fun B hB => ?_, by rw [hcells]; exact hT.good.nodup, fun B hB => ?_⟩, fun B hB => ?_, ?_, fun B hB => .inl hB⟩,
    ⟨fun p => decide (b.get p.1 p.2 = -1) && decide (bg.get p.1 p.2 ≠ 11), fun B hB => ?_⟩, hcells⟩
  · obtain ⟨B0, hB0, rfl⟩ := List.mem_map.mp hB
    intro q hq
    obtain ⟨q', h1, h2⟩ := hrow hq
    rw [h2]
    exact hT.good.rect B0 hB0 q' h1
  · obtain ⟨B0, hB0, rfl⟩ := List.mem_map.mp hB
    intro k hk
    obtain ⟨q, h1, h2⟩ := hT.good.covered B0 hB0 k hk
    obtain ⟨q', h3, h4⟩ := hrow' h1
    exact ⟨q', h3, by rw [h4]; exact h2⟩
  · obtain ⟨B0, hB0, rfl⟩ := List.mem_map.mp hB
    intro q hq
    obtain ⟨q', h1, h2⟩ := hrow hq
    rw [h2]
    exact hT.weight B0 hB0 q' h1
  · intro p hp
    rw [hcells] at hp
    exact hT.board p hp
  · obtain ⟨B0, hB0, rfl⟩ := List.mem_map.mp hB
    exact refit_solves (hT.good.rect B0 hB0)

/-- The solvers never panic on the refitted system. -/
theorem getAll_refit {r c : Nat} {S T : Sys} {b bg : Board} (hT : GroupOK r c S T) (hbg : Rect bg r c)
    (hnn : ∀ p, 0 ≤ bval bg p) :
    ∃ n i bg', getAllOnBoard (T.map (refitBlock b bg)) bg = some (n, i, bg') ∧ (∀ p ∈ n, p ∈ sysCells T) ∧
      (∀ p ∈ i, p ∈ sysCells T) ∧ Rect bg' r c ∧ ∀ p, 0 ≤ bval bg' p := by
  obtain ⟨h1, h2, h3⟩ := refit_group (b := b) (bg := bg) hT
  obtain ⟨o, n, i, o2, n2, i2, n3, i3, a1, a2, a3, a4, a5, a6, a7, a8, a9, a10, -⟩ := group_chain hbg h1 h2
  have hsub : ∀ {p}, p ∈ sysCells o2.sys → p ∈ sysCells T := by
    intro p hp
    rw [← h3]
    exact a6.perm.mem_iff.mpr (by simp [hp])
  refine ⟨n ++ n2 ++ n3, i ++ i2 ++ i3, o2.board, ?_, fun p hp => ?_, fun p hp => ?_, a6.rect, fun p => ?_⟩
  · unfold getAllOnBoard
    simp only [a1, a2, a4, a5, a7, Option.bind_eq_bind, Option.bind_some]
    rfl
  · rcases List.mem_append.mp hp with h | h
    · rw [← h3]; exact a6.mem_n h
    · exact hsub (a9 p h).1
  · rcases List.mem_append.mp hp with h | h
    · rw [← h3]; exact a6.mem_i h
    · exact hsub (a10 p h).1
  · have := a6.marked p.1 p.2
    unfold bval
    rw [this]
    split_ifs
    · decide
    · decide
    · exact hnn p

theorem setAll_rect {r c : Nat} {v : Int} : ∀ (l : List Pos) (g : Board), Rect g r c → Rect (l.foldl (fun g p => g.set p.1 p.2 v) g) r c := by
  intro l
  induction l with
  | nil => intro g h; exact h
  | cons p l ih => intro g h; exact ih _ (rect_set h _ _ _)

theorem setAll_nonneg {r c : Nat} {v : Int} (hv : 0 ≤ v) : ∀ (l : List Pos) (g : Board), Rect g r c → (∀ p ∈ l, p ∈ grid r c) →
    (∀ p, 0 ≤ bval g p) → ∀ p, 0 ≤ bval (l.foldl (fun g p => g.set p.1 p.2 v) g) p := by
  intro l
  induction l with
  | nil => intro g _ _ h; exact h
  | cons q l ih =>
    intro g hg hl h
    refine ih _ (rect_set hg _ _ _) (fun p hp => hl p (by simp [hp])) fun p => ?_
    have hq := mem_grid.mp (hl q (by simp))
    unfold bval
    rw [get_set hg hq.1 hq.2]
    split
    · exact hv
    · exact h p

/-! ## adjust_step -/

/-- The state of the loops of `adjust_step`. -/
structure TryInv (R C : Nat) (board0 : Board) (r0 rn0 : Nat) (ps : List Pos) (s : AdjSt) : Prop where
  rect : Rect s.b R C
  out : ∀ q, q ∉ ps → bval s.b q = bval board0 q
  bgRect : Rect s.bg R C
  bgNonneg : ∀ p, 0 ≤ bval s.bg p
  rEq : s.r = r0
  rnEq : s.rn = rn0

/-- The recursive call does its work while at most `N` cells are left. -/
def StepOK (R C M N : Nat) (step : AdjRec) : Prop :=
  ∀ (board bg : Board) (plan : List Pos) (r rn k : Nat), r + rn ≤ N → Partial R C M board r rn → Rect bg R C →
    (∀ p, 0 ≤ bval bg p) → (∀ p ∈ plan, p ∈ grid R C) →
    ∃ o, step board bg plan r rn k = some o ∧ (o.2.1 = true → Finished R C M board o.1)

/-- The cells laid in one call. -/
structure FrontOK (R C : Nat) (board0 : Board) (ps : List Pos) : Prop where
  nodup : ps.Nodup
  grid : ∀ p ∈ ps, p ∈ Spec.grid R C
  fresh : ∀ p ∈ ps, bval board0 p = -10
  pos : 0 < ps.length

variable {R C M N : Nat} {step : AdjRec} {board0 bog : Board} {r0 rn0 : Nat} {S T : Sys} {front : List (List Pos)} {m e : Nat}
  {sh : Nat → List Int → List Int}

theorem Grown.trans {b1 b2 b3 : Board} (h1 : Grown R C b1 b2) (h2 : Grown R C b2 b3) : Grown R C b1 b3 := by
  intro p hp hne
  have e1 := h1 p hp hne
  rw [h2 p hp (by rw [e1]; exact hne), e1]

theorem rect_ne_nil {b : Board} (h : Rect b R C) (hR : 0 < R) : b ≠ [] := by
  rintro rfl
  have := h.len
  simp at this
  omega

theorem adjustTry_spec (hsh : ∀ k l, (sh k l).Perm l) (hR : 0 < R) (hstep : StepOK R C M N step)
    (hp : Partial R C M board0 r0 rn0) (hbog : Rect bog R C) (hbogn : ∀ p, 0 ≤ bval bog p) (hN : r0 + rn0 ≤ N + 1)
    (hT : GroupOK R C S T) (hF : FrontOK R C board0 front.flatten) (hm : m ≤ front.flatten.length) (hm1 : m ≤ r0)
    (hm2 : front.flatten.length - m ≤ rn0) {s : AdjSt} (hs : TryInv R C board0 r0 rn0 front.flatten s) :
    ∃ x, adjustTry sh step board0 bog r0 rn0 T front m s = some x ∧
      (∀ o, x = .inl o → o.2.1 = true ∧ Finished R C M board0 o.1) ∧
      (∀ s', x = .inr s' → TryInv R C board0 r0 rn0 front.flatten s') := by
  have hlaid := adjustArea_laid (hsh s.k) hs.rect hs.out hF.nodup hF.grid hm
  obtain ⟨hpart, hgrown⟩ := hlaid.partial hp hF.nodup hF.grid hF.fresh hm hm1 hm2
  have hpos := hF.pos
  unfold adjustTry
  simp only
  generalize adjustArea (sh s.k) s.b front m = b at *
  obtain ⟨n, i, bg1, g1, g2, g3, g4, g5⟩ := getAll_refit (b := b) hT hs.bgRect hs.bgNonneg
  have hng : ∀ p ∈ n, p ∈ grid R C := fun p hpn => mem_grid.mpr (hT.board p (g2 p hpn))
  have hig : ∀ p ∈ i, p ∈ grid R C := fun p hpi => mem_grid.mpr (hT.board p (g3 p hpi))
  simp only [g1, Option.bind_eq_bind, Option.bind_some]
  have r1 := setAll_rect (v := 10) i bg1 g4
  have n1 := setAll_nonneg (v := 10) (by decide) i bg1 g4 hig g5
  have r2 := setAll_rect (v := 1) n _ r1
  have n2 := setAll_nonneg (v := 1) (by decide) n _ r1 hng n1
  have r3 := setAll_rect (v := 11) i _ r2
  have n3 := setAll_nonneg (v := 11) (by decide) i _ r2 hig n2
  split
  · refine ⟨_, rfl, by simp, ?_⟩
    intro s' hs'
    have := Sum.inr.inj hs'
    subst this
    exact ⟨hlaid.rect, hlaid.out, r1, n1, hs.rEq, hs.rnEq⟩
  · split
    · refine ⟨_, rfl, ?_, by simp⟩
      intro o ho
      have := Sum.inl.inj ho
      subst this
      refine ⟨rfl, rect_ne_nil hlaid.rect hR, hlaid.rect, hpart.vals, hgrown, ?_⟩
      have a1 := hpart.open_
      have a2 := hpart.mines
      show M ≤ cellsWith R C (-1) b + cellsWith R C (-10) b
      omega
    · rw [hs.rEq, hs.rnEq]
      obtain ⟨a, ha1, ha2⟩ := hstep b _ n (r0 - m) (rn0 - (front.flatten.length - m)) (s.k + 1) (by omega) hpart r3 n3 hng
      simp only [ha1, Option.bind_some]
      split
      · rename_i hflag
        have hfin := ha2 hflag
        rw [if_pos hfin.ne]
        refine ⟨_, rfl, ?_, by simp⟩
        intro o ho
        have := Sum.inl.inj ho
        subst this
        exact ⟨rfl, hfin.ne, hfin.rect, hfin.vals, hgrown.trans hfin.grown, hfin.enough⟩
      · refine ⟨_, rfl, by simp, ?_⟩
        intro s' hs'
        have := Sum.inr.inj hs'
        subst this
        exact ⟨hp.rect, fun _ _ => rfl, hbog, hbogn, rfl, rfl⟩

theorem adjustTries_spec (hsh : ∀ k l, (sh k l).Perm l) (hR : 0 < R) (hstep : StepOK R C M N step)
    (hp : Partial R C M board0 r0 rn0) (hbog : Rect bog R C) (hbogn : ∀ p, 0 ≤ bval bog p) (hN : r0 + rn0 ≤ N + 1)
    (hT : GroupOK R C S T) (hF : FrontOK R C board0 front.flatten) (hm : m ≤ front.flatten.length) (hm1 : m ≤ r0)
    (hm2 : front.flatten.length - m ≤ rn0) : ∀ (u : Nat) (s : AdjSt), TryInv R C board0 r0 rn0 front.flatten s →
    ∃ x, adjustTries sh step board0 bog r0 rn0 T front m u s = some x ∧
      (∀ o, x = .inl o → o.2.1 = true ∧ Finished R C M board0 o.1) ∧
      (∀ s', x = .inr s' → TryInv R C board0 r0 rn0 front.flatten s') := by
  intro u
  induction u with
  | zero =>
    intro s hs
    exact ⟨_, rfl, by simp, fun s' h => by cases h; exact hs⟩
  | succ u ih =>
    intro s hs
    obtain ⟨x, h1, h2, h3⟩ := adjustTry_spec hsh hR hstep hp hbog hbogn hN hT hF hm hm1 hm2 hs
    unfold adjustTries
    simp only [h1, Option.bind_eq_bind, Option.bind_some]
    cases x with
    | inl o => exact ⟨_, rfl, fun o' h => by cases h; exact h2 o rfl, by simp⟩
    | inr s' => exact ih s' (h3 s' rfl)

theorem adjustRounds_spec (hsh : ∀ k l, (sh k l).Perm l) (hR : 0 < R) (hstep : StepOK R C M N step)
    (hp : Partial R C M board0 r0 rn0) (hbog : Rect bog R C) (hbogn : ∀ p, 0 ≤ bval bog p) (hN : r0 + rn0 ≤ N + 1)
    (hT : GroupOK R C S T) (hF : FrontOK R C board0 front.flatten) (he : e ≤ front.flatten.length) :
    ∀ (is : List Nat), (∀ i ∈ is, i ≤ front.flatten.length) → ∀ (s : AdjSt), TryInv R C board0 r0 rn0 front.flatten s →
    ∃ o, adjustRounds sh step board0 bog r0 rn0 T front e is s = some o ∧ (o.2.1 = true → Finished R C M board0 o.1) := by
  intro is
  induction is with
  | nil => intro _ s _; exact ⟨_, rfl, by simp⟩
  | cons i is ih =>
    intro hi s hs
    have hrest := ih (fun j hj => hi j (by simp [hj]))
    unfold adjustRounds
    simp only
    split
    · exact hrest s hs
    · rename_i hc
      rw [hs.rEq, hs.rnEq] at hc
      obtain ⟨x, h1, h2, h3⟩ := adjustTries_spec hsh hR hstep hp hbog hbogn hN hT hF
        (roundMines_le he (hi i (by simp))) (by omega) (by omega) 3 s hs
      simp only [h1, Option.bind_eq_bind, Option.bind_some]
      cases x with
      | inl o => exact ⟨_, rfl, fun _ => (h2 o rfl).2⟩
      | inr s' => exact hrest s' (h3 s' rfl)

theorem sysShape_of (g : Board) : ∃ S, refreshMatrixs g = some S ∧ SysShape g S := by
  obtain ⟨S, h1, h2, h3, h4, -⟩ := Properties.refresh_matrixs_exact g
  obtain ⟨S'', h1'', h6⟩ := refreshMatrixs_spec g
  rw [h1] at h1''
  obtain rfl := Option.some.inj h1''
  exact ⟨S, h1, h2, h3, fun B hB => (h4 B hB).1, h6.weight⟩

theorem adjustStep_spec (hsh : ∀ k l, (sh k l).Perm l) (hR : 0 < R) : ∀ N, StepOK R C M N (adjustStep sh (N + 1)) := by
  intro N
  induction N using Nat.strong_induction_on with
  | _ N ih =>
    intro board bog plan r rn k hN hp hbog hbogn hplan
    have hbg := setAll_rect (v := 1) plan bog hbog
    have hbgn := setAll_nonneg (v := 1) (by decide) plan bog hbog hplan hbogn
    unfold adjustStep
    simp only
    generalize plan.foldl (fun g p => g.set p.1 p.2 1) bog = bg at *
    obtain ⟨S, s1, s2⟩ := sysShape_of bg
    obtain ⟨Ts, t1, t2⟩ := refreshMatrixses_spec hbg hR (fun p _ _ => hbgn p) s1 s2
    have hd := rect_dims hbg hR
    have hOn : Properties.OnBoard S R C := by
      intro q hq
      have := ((s2.cells q).mp hq).1.1
      rw [hd.1, hd.2, mem_grid] at this
      exact this
    simp only [t1, Option.bind_eq_bind, Option.bind_some]
    cases Ts with
    | nil => exact ⟨_, rfl, by simp⟩
    | cons T Ts =>
      have hTne := t2.ne T (by simp)
      have hT := t2.group s2 hOn (T := T) (by simp)
      simp only
      cases hf : T.map fun B => B.x.filter fun p => decide (board.get p.1 p.2 = -10) with
      | nil => simp only [List.map_eq_nil_iff] at hf; exact absurd hf hTne
      | cons f0 fs =>
        simp only
        split
        · split
          · exact ⟨_, rfl, by simp⟩
          · refine ⟨_, rfl, fun _ => ⟨rect_ne_nil hp.rect hR, hp.rect, hp.vals, fun _ _ _ => rfl, ?_⟩⟩
            have a1 := hp.open_
            have a2 := hp.mines
            simp only
            omega
        · rename_i hne
          have hfl : (f0 :: fs).flatten = (sysCells T).filter fun p => decide (board.get p.1 p.2 = -10) := by
            rw [← hf]
            unfold sysCells
            rw [List.filter_flatMap]
            rfl
          have hF : FrontOK R C board (f0 :: fs).flatten := by
            refine ⟨?_, fun p hpf => ?_, fun p hpf => ?_, ?_⟩
            · rw [hfl]; exact hT.good.nodup.filter _
            · rw [hfl] at hpf
              exact mem_grid.mpr (hT.board p (List.mem_filter.mp hpf).1)
            · rw [hfl] at hpf
              exact of_decide_eq_true (List.mem_filter.mp hpf).2
            · rw [List.flatten_cons, List.length_append]
              have := List.length_pos_iff.mpr hne
              omega
          have hle : (f0 :: fs).flatten.length ≤ r + rn := by
            rw [← hp.open_, ← List.toFinset_card_of_nodup hF.nodup]
            refine Finset.card_le_card fun p hpf => ?_
            rw [List.mem_toFinset] at hpf
            exact Finset.mem_filter.mpr ⟨hF.grid p hpf, hF.fresh p hpf⟩
          have hpos := hF.pos
          obtain ⟨N', rfl⟩ : ∃ N', N = N' + 1 := ⟨N - 1, by omega⟩
          refine adjustRounds_spec hsh hR (ih N' (by omega)) hp hbog hbogn (by omega) hT hF ?_ _
            (fun i hi => by have := List.mem_range.mp hi; omega) _ ⟨hp.rect, fun _ _ => rfl, hbg, hbgn, rfl, rfl⟩
          rw [Nat.div_le_iff_le_mul_add_pred (by omega)]
          have : (f0 :: fs).flatten.length * r ≤ (f0 :: fs).flatten.length * (rn + r) := Nat.mul_le_mul_left _ (by omega)
          rw [Nat.mul_comm (rn + r)]
          omega

end Ms
