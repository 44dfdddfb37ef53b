import Verif.Lemmas.EasyPick

/-! `is_solvable` is the player of `SpecEasy`. -/

namespace Ms
open Spec

variable {r c : Nat} {b : Board} {s : Pos} {O : Finset Pos} {g : Board} {C K K' : Finset Pos}

/-! ## the easy reasoning -/

theorem easy_sub (hK : K ⊆ grid r c) : K ⊆ easy r c b K := by
  classical
  intro p hp
  unfold easy
  rw [Finset.mem_filter]
  exact ⟨hK hp, fun C hC _ => hC hp⟩

theorem easy_le (hC : Settled r c b C) (h : K ⊆ C) : easy r c b K ⊆ C := by
  classical
  intro p hp
  unfold easy at hp
  rw [Finset.mem_filter] at hp
  exact hp.2 C h hC

theorem easy_grid : easy r c b K ⊆ grid r c := by
  classical
  intro p hp
  unfold easy at hp
  exact (Finset.mem_filter.mp hp).1

theorem easy_settled : Settled r c b (easy r c b K) := by
  classical
  have hmem : ∀ p, p ∈ easy r c b K ↔ p ∈ grid r c ∧ ∀ C, K ⊆ C → Settled r c b C → p ∈ C := by
    intro p; unfold easy; rw [Finset.mem_filter]
  have hread : ∀ q, ReadsAt r c b (easy r c b K) q → ∀ C, K ⊆ C → Settled r c b C → ReadsAt r c b C q := by
    rintro q ⟨h1, h2, h3⟩ C hC hS
    exact ⟨h1, ((hmem q).mp h2).2 C hC hS, h3⟩
  refine ⟨fun v q hq h t ht hn => ?_, fun q q' hq hq' h h' t ht hn => ?_⟩
  · refine (hmem t).mpr ⟨ht, fun C hC hS => ?_⟩
    exact hS.one v q (hread q hq C hC hS) (fun t ht hn => (h t ht hn).imp (fun h1 => ((hmem t).mp h1).2 C hC hS) id) t ht hn
  · refine (hmem t).mpr ⟨ht, fun C hC hS => ?_⟩
    exact hS.pair q q' (hread q hq C hC hS) (hread q' hq' C hC hS)
      (fun t ht hn hn' => (h t ht hn hn').imp (fun h1 => ((hmem t).mp h1).2 C hC hS) id)
      (fun t ht hn hn' => (h' t ht hn hn').imp (fun h1 => ((hmem t).mp h1).2 C hC hS) id) t ht hn

theorem easy_of_settled (hK : K ⊆ grid r c) (h : Settled r c b K) : easy r c b K = K :=
  Finset.Subset.antisymm (easy_le h subset_rfl) (easy_sub hK)

theorem easy_between (hK' : K' ⊆ grid r c) (h : K ⊆ K') (h' : K' ⊆ easy r c b K) : easy r c b K' = easy r c b K :=
  Finset.Subset.antisymm (easy_le easy_settled h') (easy_le easy_settled (h.trans (easy_sub hK')))

theorem clears_congr (h : easy r c b K = easy r c b K') : Clears r c b K ↔ Clears r c b K' := by
  constructor
  · intro hc
    cases hc with
    | done h1 => exact .done (h ▸ h1)
    | more h1 h2 => exact .more (h ▸ h1) (h ▸ h2)
  · intro hc
    cases hc with
    | done h1 => exact .done (h ▸ h1)
    | more h1 h2 => exact .more (h ▸ h1) (h ▸ h2)

theorem known_grid : known r c g ⊆ grid r c := fun _ hp => (mem_known.mp hp).1

theorem hard_grid (h : K ⊆ grid r c) : hard r c b K ⊆ grid r c := by
  classical
  unfold hard
  exact Finset.union_subset h (Finset.filter_subset _ _)

/-- a player who is stuck stays stuck -/
theorem not_clears_stuck (he : easy r c b K = K) (hn : hard r c b K = K) (hv : ¬ ∀ p ∈ grid r c, layout b p = false → p ∈ K) :
    ¬ Clears r c b K := by
  intro h
  have key : ∀ K0, Clears r c b K0 → K0 = K → False := by
    intro K0 h
    induction h with
    | done h1 => intro e; rw [e, he] at h1; exact hv h1
    | more h1 h2 ih => intro e; exact ih (by rw [e, he, hn])
  exact key K h rfl

/-! ## opening cells -/

/-- the cells known after opening -/
theorem refresh_known (hb : BoardOK r c b) {g' : Board} (hg : Rect g' r c) {n : List Pos} (hn : ∀ p ∈ n, p ∈ grid r c)
    (hsafe : ∀ p ∈ n, layout b p = false) {g'' : Board} (h : refreshBoard b.view g' n = some g'') :
    (∀ p ∈ grid r c, bval g' p ≠ 10 → p ∈ known r c g'') ∧ (∀ p ∈ n, p ∈ known r c g'') ∧
      ∀ C, Settled r c b C → (∀ p ∈ grid r c, bval g' p ≠ 10 → p ∈ n ∨ p ∈ C) → (∀ p ∈ n, p ∈ C) → known r c g'' ⊆ C := by
  classical
  have hv := hb.view
  obtain ⟨g1, h1, h2, h3⟩ := refreshBoard_spec (g := g') (clicked := n) hb.le8 (by rw [hv.1, hv.2]; exact hg)
    (fun p hp => by rw [hb.vcells]; exact hn p hp)
  rw [h] at h1
  obtain rfl := Option.some.inj h1
  rw [hb.vcells] at h3
  have hopen : ∀ p ∈ grid r c, Opens b.view g' n p → bval g'' p ≠ 10 := by
    intro p hp ho
    rw [h3 p hp, if_pos ho]
    have := hb.le8 p (by rw [hb.vcells]; exact hp)
    unfold openMark
    split <;> omega
  refine ⟨fun p hp h10 => mem_known.mpr ⟨hp, ?_⟩, fun p hp => mem_known.mpr ⟨hn p hp, hopen p (hn p hp) (.click hp)⟩, ?_⟩
  · by_cases ho : Opens b.view g' n p
    · exact hopen p hp ho
    · rw [h3 p hp, if_neg ho]
      split
      · omega
      · exact h10
  · intro C hC hin hnC
    have hO : ∀ q, Opens b.view g' n q → q ∈ grid r c ∧ q ∈ C ∧ layout b q = false := by
      intro q hq
      induction hq with
      | click hp => exact ⟨hn _ hp, hnC _ hp, hsafe _ hp⟩
      | @spread p q _ h0 hqc ha _ ih =>
        have hq' : q ∈ grid r c := by rw [hb.vcells] at hqc; exact hqc
        have hz : ∀ t ∈ grid r c, Near p t → layout b t = false := by
          intro t ht hnt
          have e := hb.number ih.1 ih.2.2
          have e0 : bval b p = 0 := h0
          rw [e0] at e
          have e1 : layoutNear r c (layout b) p = 0 := by omega
          unfold layoutNear at e1
          rw [Finset.card_eq_zero, Finset.filter_eq_empty_iff] at e1
          have := e1 ht
          by_contra hc
          exact this ⟨hnt, by simpa using hc⟩
        exact ⟨hq', hC.one false p ⟨ih.1, ih.2.1, ih.2.2⟩ (fun t ht hnt => .inr (hz t ht hnt)) q hq' ha.1, hz q hq' ha.1⟩
    intro p hp
    obtain ⟨hp1, hp2⟩ := mem_known.mp hp
    by_cases ho : Opens b.view g' n p
    · exact (hO p ho).2.1
    · rw [h3 p hp1, if_neg ho] at hp2
      have h10 : bval g' p ≠ 10 := by
        split at hp2
        · rename_i h14; omega
        · exact hp2
      rcases hin p hp1 h10 with h4 | h4
      · exact absurd (.click h4) ho
      · exact h4

/-! ## one round -/

/-- What one round of `is_solvable` does. -/
inductive Round (r c : Nat) (b : Board) (O : Finset Pos) (g : Board) : Option (List Pos × Board) → Prop
  | easy {n i : List Pos} {g' : Board} : Found r c b O g n i g' →
      (∀ C, Settled r c b C → known r c g ⊆ C → (∀ p ∈ n, p ∈ C) ∧ ∀ p ∈ i, p ∈ C) → Round r c b O g (some (n, g'))
  | large : Settled r c b (known r c g) → TooLarge r c b (known r c g) → Round r c b O g none
  | stuck : Settled r c b (known r c g) → hard r c b (known r c g) = known r c g → Round r c b O g none
  | hard {n i : List Pos} {g' : Board} : Found r c b O g n i g' → Settled r c b (known r c g) →
      ¬ TooLarge r c b (known r c g) → (∀ p, p ∈ hard r c b (known r c g) ↔ p ∈ known r c g ∨ p ∈ n ∨ p ∈ i) →
      Round r c b O g (some (n, g'))

theorem pick_round (hb : BoardOK r c b) (hs : layout b s = false) (hsg : s ∈ grid r c) (k : KInv r c b s O g) :
    ∃ res, solvablePick g = some res ∧ Round r c b O g res := by
  classical
  obtain ⟨S, s1, s2⟩ := refreshMatrixs_for hb hs hsg k
  have sE := EqsOf.refresh s1
  have sG : ∀ B ∈ S, Block01 B ∧ RowsHit B ∧ BlockCovered B ∧ B.rows ≠ [] := fun B hB =>
    ⟨s2.good.rect B hB, s2.hit B hB, s2.good.covered B hB, s2.rows B hB⟩
  obtain ⟨o, m, l, h1, h2, h3, h4, h5, h6, h7, -⟩ := solveDirect_spec (S := S) (g := g) s2.good.rect s2.good.covered
    ⟨_, s2.sat hb hs hsg k⟩
  unfold solvablePick
  simp only [s1, Option.bind_eq_bind, Option.bind_some, h1, h3]
  rcases ded_found s2 hb hs hsg k h2 h4 h5 h6 h7 with ⟨e1, e2, e3, e4⟩ | ⟨e1, e2⟩
  · rw [if_pos ⟨e1, e2⟩]
    obtain ⟨q1, q2⟩ := solveDirect_quiet s2.good.rect s2.good.covered s2.hit s2.rows h1 (by rw [h3, e1, e2])
    have eE := sE.chunk (chunkMatrixes_keeps sG q1)
    have eG : ∀ B ∈ o.sys, Block01 B ∧ RowsHit B ∧ BlockCovered B ∧ B.rows ≠ [] := fun B hB =>
      ⟨e4.good.rect B hB, e4.hit B hB, e4.good.covered B hB, e4.rows B hB⟩
    obtain ⟨o2, m2, l2, h1', h2', h3', h4', h5', h6', h7', -⟩ := solveMinus_spec (S := o.sys) (g := g)
      e4.good.rect e4.good.covered ⟨_, e4.sat hb hs hsg k⟩
    rw [e3, h1']
    simp only [Option.bind_some, h3']
    rcases ded_found e4 hb hs hsg k h2' h4' h5' h6' h7' with ⟨d1, d2, d3, d4⟩ | ⟨d1, d2⟩
    · rw [if_pos ⟨d1, d2⟩]
      obtain ⟨⟨S1, w1, w2⟩, w3⟩ := solveMinus_quiet e4.good.rect e4.good.covered ⟨_, e4.sat hb hs hsg k⟩ e4.hit e4.rows h1'
        (by rw [h3', d1, d2])
      have w4 := chunkMatrixes_some e4.good.rect e4.good.covered e4.rows w1
      have dE : EqsOf g o2.sys := (eE.chunk (chunkMatrixes_keeps eG w1)).chunk (chunkMatrixes_keeps (fun B hB =>
        ⟨w4.rect B hB, w4.hit B hB, w4.covered B hB, w4.rows B hB⟩) w2)
      have hset := k.settled hb hs hsg s2 sE q2 e4 eE w3
      have hlarge := k.tooLarge_iff hb hs hsg d4 dE
      have hsat := d4.sat hb hs hsg k
      by_cases hlim : ∀ B ∈ o2.sys, B.x.length ≤ ENUM_LIMIT
      · have hnl : ¬ TooLarge r c b (known r c g) := by
          rw [hlarge]
          rintro ⟨B, hB, hl⟩
          have := hlim B hB
          omega
        obtain ⟨n3, i3, f1, f2, f3⟩ := solveEnumerate_spec (block_enumOK d4 ⟨_, hsat⟩) hlim d4.good.nodup ⟨_, hsat⟩
        have hhard : ∀ p, p ∈ hard r c b (known r c g) ↔ p ∈ known r c g ∨ p ∈ n3 ∨ p ∈ i3 := by
          intro p
          unfold hard
          rw [Finset.mem_union, Finset.mem_filter]
          refine or_congr_right ?_
          by_cases hp : p ∈ sysCells o2.sys
          · have hfr := (d4.cells p).mp hp
            have hcov := (k.covered_iff hb hs hsg).mp hfr.1
            obtain ⟨B, hB, hpB⟩ := mem_sysCells.mp hp
            have htw : (∀ B ∈ o2.sys, ¬ HasTwin B p) ↔ ¬ HasDouble r c b (known r c g) p := by
              rw [← k.double_iff hb hs hsg, ← dE.twin d4.good.nodup d4.cells hB hpB]
              constructor
              · exact fun h => h B hB
              · intro h B' hB' ht
                have ht0 := ht
                obtain ⟨i, j, hi, -, -, hpi, -⟩ := ht
                obtain rfl := block_unique d4.good.nodup hB hB' hpB (by rw [← hpi]; exact getD_mem_of_lt _ hi)
                exact h ht0
            rw [f2, f3, htw]
            have c1 := k.certain_iff hb hs hsg hfr.1 false
            have c2 := k.certain_iff hb hs hsg hfr.1 true
            have c3 : ∀ v, (∀ σ, Solves σ o2.sys → σ p = v) ↔ ∀ σ, Consistent g σ → σ p = v := fun v =>
              forall_congr' fun σ => by rw [d4.solves]
            rw [c3, c3, c1, c2]
            have hE := (k.edge_iff hb hs hsg).mp hfr
            constructor
            · rintro ⟨-, -, h | ⟨h, h'⟩⟩
              · exact .inl ⟨hp, h⟩
              · exact .inr ⟨hp, h', h⟩
            · rintro (⟨-, h⟩ | ⟨-, h', h⟩)
              · exact ⟨hcov.1, hE, .inl h⟩
              · exact ⟨hcov.1, hE, .inr ⟨h, h'⟩⟩
          · rw [f2, f3]
            constructor
            · rintro ⟨-, h, -⟩
              exact absurd ((d4.cells p).mpr ((k.edge_iff hb hs hsg).mpr h)) hp
            · rintro (h | h)
              · exact absurd h.1 hp
              · exact absurd h.1 hp
        rw [f1]
        simp only [Option.bind_some]
        by_cases hemp : n3 = [] ∧ i3 = []
        · rw [if_pos hemp]
          refine ⟨none, rfl, .stuck hset ?_⟩
          ext p
          rw [hhard, hemp.1, hemp.2]
          simp
        · rw [if_neg hemp]
          refine ⟨_, rfl, ?_⟩
          have hsafe : ∀ p ∈ n3, p ∈ grid r c ∧ bval g p = 10 ∧ ∀ σ, Explains r c b O σ → σ p = false := by
            intro p hp
            obtain ⟨a1, a2⟩ := (f2 p).mp hp
            have hc := (k.isCovered hb hs hsg).mp ((d4.cells p).mp a1).1
            exact ⟨hc.1, hc.2, fun σ hσ => a2 σ ((d4.solves σ).mpr (k.consistent hb hs hsg hσ))⟩
          have hmine : ∀ p ∈ i3, p ∈ grid r c ∧ bval g p = 10 ∧ ∀ σ, Explains r c b O σ → σ p = true := by
            intro p hp
            obtain ⟨a1, -, a2⟩ := (f3 p).mp hp
            have hc := (k.isCovered hb hs hsg).mp ((d4.cells p).mp a1).1
            exact ⟨hc.1, hc.2, fun σ hσ => a2 σ ((d4.solves σ).mpr (k.consistent hb hs hsg hσ))⟩
          obtain ⟨q1, q2⟩ := mark11_bval i3 g k.rect (fun p hp => (hmine p hp).1)
          rw [d3]
          refine .hard ⟨q1, ?_, hsafe, hmine, fun p hp => ?_, fun p hp _ => ?_⟩ hset hnl hhard
          · by_contra hc
            push Not at hc
            exact hemp hc
          · rw [q2, if_pos hp]
          · rw [q2, if_neg hp]
      · have hany : (o2.sys.any fun B => B.x.length > ENUM_LIMIT) = true := by
          push Not at hlim
          obtain ⟨B, hB, hl⟩ := hlim
          rw [List.any_eq_true]
          exact ⟨B, hB, by simpa using hl⟩
        have hnone : solveEnumerate o2.sys = some ([], []) := by
          unfold solveEnumerate; rw [if_pos hany]
        rw [hnone]
        simp only [Option.bind_some, and_self, if_true]
        push Not at hlim
        exact ⟨none, rfl, .large hset (hlarge.mpr hlim)⟩
    · rw [if_neg d1]
      exact ⟨_, rfl, .easy d2 fun C hC hK => solveMinus_in hC (k.tiedB hb hs hsg e4 eE hK) h1' h3'⟩
  · rw [if_neg e1]
    exact ⟨_, rfl, .easy e2 fun C hC hK => solveDirect_in hC (k.tiedB hb hs hsg s2 sE hK) h1 h3⟩

/-- what is known after the round -/
theorem found_known (hb : BoardOK r c b) (hs : layout b s = false) (hsg : s ∈ grid r c) (k : KInv r c b s O g)
    {n i : List Pos} {g' g'' : Board} (hf : Found r c b O g n i g') (h : refreshBoard b.view g' n = some g'') :
    known r c g ⊆ known r c g'' ∧ (∀ p ∈ n, p ∈ known r c g'') ∧ (∀ p ∈ i, p ∈ known r c g'') ∧
      ∀ C, Settled r c b C → known r c g ⊆ C → (∀ p ∈ n, p ∈ C) → (∀ p ∈ i, p ∈ C) → known r c g'' ⊆ C := by
  have htrue := layout_explains (r := r) (c := c) (openable_safe hs k.openable)
  obtain ⟨a1, a2, a3⟩ := refresh_known hb hf.rect (n := n) (fun p hp => (hf.safe p hp).1)
    (fun p hp => (hf.safe p hp).2.2 _ htrue) h
  refine ⟨fun p hp => ?_, a2, fun p hp => a1 p (hf.mine p hp).1 (by rw [hf.marked p hp]; decide), fun C hC hK hn hi => ?_⟩
  · obtain ⟨h1, h2⟩ := mem_known.mp hp
    by_cases hpn : p ∈ n
    · exact a2 p hpn
    · refine a1 p h1 ?_
      by_cases hpi : p ∈ i
      · rw [hf.marked p hpi]; decide
      · rw [hf.rest p hpi hpn]; exact h2
  · refine a3 C hC (fun p hp h10 => ?_) hn
    by_cases hpn : p ∈ n
    · exact .inl hpn
    · right
      by_cases hpi : p ∈ i
      · exact hi p hpi
      · rw [hf.rest p hpi hpn] at h10
        exact hK (mem_known.mpr ⟨hp, h10⟩)

theorem victory_known (hb : BoardOK r c b) (hs : layout b s = false) (hsg : s ∈ grid r c) (k : KInv r c b s O g) :
    isVictory g b = true ↔ ∀ p ∈ grid r c, layout b p = false → p ∈ known r c g := by
  rw [isVictory_iff hb hs hsg k]
  refine forall_congr' fun p => forall_congr' fun hp => forall_congr' fun hl => ?_
  rw [← k.reads hb hs hsg]
  exact ⟨fun h => h.2.1, fun h => ⟨hp, h, hl⟩⟩

theorem loop_clears (hb : BoardOK r c b) (hs : layout b s = false) (hsg : s ∈ grid r c) (fuel : Nat) :
    ∀ (g : Board) (O : Finset Pos), KInv r c b s O g → isVictory g b = false → tens r c g < fuel →
    ∃ v, solvableLoop b fuel g = some v ∧ (v = true ↔ Clears r c b (known r c g)) := by
  classical
  induction fuel with
  | zero => intro g O _ _ h; omega
  | succ fuel ih =>
    intro g O k hnv hf
    have hnv' : ¬ ∀ p ∈ grid r c, layout b p = false → p ∈ known r c g := by
      intro h
      rw [(victory_known hb hs hsg k).mpr h] at hnv
      simp at hnv
    have hgrid := known_grid (r := r) (c := c) (g := g)
    obtain ⟨res, h1, h2⟩ := pick_round hb hs hsg k
    rw [solvableLoop, h1]
    have step : ∀ {n i : List Pos} {g' : Board}, Found r c b O g n i g' → ∀ K0, (Clears r c b (known r c g) ↔ Clears r c b K0) →
        (∀ g'', refreshBoard b.view g' n = some g'' → easy r c b (known r c g'') = easy r c b K0) →
        ∃ v, (match refreshBoard b.view g' n with
          | none => none
          | some g'' => if isVictory g'' b = true then some true else solvableLoop b fuel g'') = some v ∧
          (v = true ↔ Clears r c b (known r c g)) := by
      intro n i g' hfd K0 hK0 heasy
      obtain ⟨g'', O', t1, t2, t3⟩ := found_step hb hs hsg k hfd
      have hcl : Clears r c b (known r c g) ↔ Clears r c b (known r c g'') := hK0.trans (clears_congr (heasy g'' t1)).symm
      rw [t1]
      simp only
      by_cases hv : isVictory g'' b = true
      · rw [if_pos hv]
        refine ⟨true, rfl, ?_⟩
        simp only [true_iff]
        rw [hcl]
        exact .done fun p hp hl => easy_sub known_grid ((victory_known hb hs hsg t2).mp hv p hp hl)
      · rw [if_neg hv]
        obtain ⟨v, v1, v2⟩ := ih g'' O' t2 (by simpa using hv) (by omega)
        exact ⟨v, v1, v2.trans hcl.symm⟩
    cases h2 with
    | easy hfd hin =>
      refine step hfd _ Iff.rfl fun g'' t1 => ?_
      obtain ⟨a1, -, -, a4⟩ := found_known hb hs hsg k hfd t1
      have hi := hin _ easy_settled (easy_sub hgrid)
      exact easy_between known_grid a1 (a4 _ easy_settled (easy_sub hgrid) hi.1 hi.2)
    | large hset hlarge =>
      refine ⟨false, rfl, ?_⟩
      simp only [Bool.false_eq_true, false_iff]
      have he := easy_of_settled hgrid hset
      intro hc
      cases hc with
      | done h3 => rw [he] at h3; exact hnv' h3
      | more h3 h4 => rw [he] at h3; exact h3 hlarge
    | stuck hset hh =>
      refine ⟨false, rfl, ?_⟩
      simp only [Bool.false_eq_true, false_iff]
      exact not_clears_stuck (easy_of_settled hgrid hset) hh hnv'
    | hard hfd hset hnl hh =>
      have he := easy_of_settled hgrid hset
      refine step hfd (hard r c b (known r c g)) ⟨fun hc => ?_, fun hc => ?_⟩ fun g'' t1 => ?_
      · cases hc with
        | done h3 => rw [he] at h3; exact absurd h3 hnv'
        | more h3 h4 => rw [he] at h4; exact h4
      · exact .more (by rw [he]; exact hnl) (by rw [he]; exact hc)
      · obtain ⟨a1, a2, a3, a4⟩ := found_known hb hs hsg k hfd t1
        have hsub := easy_sub (b := b) (hard_grid (b := b) hgrid)
        refine easy_between known_grid (fun p hp => ?_) (a4 _ easy_settled (fun p hp => hsub ((hh p).mpr (.inl hp)))
          (fun p hp => hsub ((hh p).mpr (.inr (.inl hp)))) fun p hp => hsub ((hh p).mpr (.inr (.inr hp))))
        rcases (hh p).mp hp with h3 | h3 | h3
        · exact a1 h3
        · exact a2 p h3
        · exact a3 p h3

/-- the part of `is_solvable` after `unsolvable_structure` -/
theorem run_clears (hb : BoardOK r c b) (hs : layout b s = false) (hsg : s ∈ grid r c) :
    ∃ g v, refreshBoard b.view (List.replicate b.row (List.replicate b.col (10 : Int))) [s] = some g ∧
      (if isVictory g b = true then some true else solvableLoop b (b.row * b.col + 1) g) = some v ∧
      (v = true ↔ Clears r c b {s}) ∧ (v = true → NoGuess r c b s) := by
  have hd := rect_dims hb.rect hb.rpos
  have hg : Rect (List.replicate b.row (List.replicate b.col (10 : Int))) r c := by
    rw [hd.1, hd.2]
    exact ⟨by simp, fun l hl => by rw [List.eq_of_mem_replicate hl]; simp⟩
  have hten : ∀ p ∈ grid r c, bval (List.replicate b.row (List.replicate b.col (10 : Int))) p = 10 := by
    intro p hp
    have hp' := mem_grid.mp hp
    rw [hd.1, hd.2]
    simp [bval, Board.get, List.getD_eq_getElem?_getD, List.getElem?_replicate, hp'.1, hp'.2]
  obtain ⟨g, O, h1, h2, -, h4, h5⟩ := open_step hb hs hsg hg (n := [s]) Openable.start
    (fun p hp => ⟨by rw [List.mem_singleton.mp hp]; exact hsg, .inl (by simpa using hp)⟩)
    (fun p hp hpn => absurd (by simpa using hp) hpn)
    (fun p hp _ _ => .inl (hten p hp))
  have hs1 : ({s} : Finset Pos) ⊆ grid r c := by simpa using hsg
  have heasy : easy r c b (known r c g) = easy r c b {s} := by
    obtain ⟨a1, a2, a3⟩ := refresh_known hb hg (n := [s]) (fun p hp => by rw [List.mem_singleton.mp hp]; exact hsg)
      (fun p hp => by rw [List.mem_singleton.mp hp]; exact hs) h1
    refine easy_between known_grid (by simpa using a2 s (by simp)) (a3 _ easy_settled (fun p hp h => absurd (hten p hp) h) ?_)
    intro p hp
    rw [List.mem_singleton.mp hp]
    exact easy_sub hs1 (by simp)
  refine ⟨g, ?_⟩
  by_cases hv : isVictory g b = true
  · rw [if_pos hv]
    refine ⟨true, h1, rfl, ?_, fun _ => ⟨O, h2.openable, (isVictory_iff hb hs hsg h2).mp hv⟩⟩
    simp only [true_iff]
    rw [← clears_congr heasy]
    exact .done fun p hp hl => easy_sub known_grid ((victory_known hb hs hsg h2).mp hv p hp hl)
  · rw [if_neg hv]
    have ht : tens r c g < b.row * b.col + 1 := by
      rw [hd.1, hd.2, ← card_grid]
      exact Nat.lt_succ_of_le (Finset.card_filter_le _ _)
    obtain ⟨v, v1, v2⟩ := loop_clears hb hs hsg _ g O h2 (by simpa using hv) ht
    obtain ⟨v', w1, w2, -⟩ := solvableLoop_spec hb hs hsg _ g O h2 (by simpa using hv) ht
    rw [v1] at w1
    obtain rfl := Option.some.inj w1
    exact ⟨v, h1, v1, v2.trans (clears_congr heasy), w2⟩

/-- `is_solvable` answers "yes" exactly if the board has no dead structure and the player clears it. -/
theorem isSolvable_clears (hb : BoardOK r c b) (hr : 3 ≤ r) (hc : 3 ≤ c) (hs : layout b s = false) (hsg : s ∈ grid r c) :
    isSolvable b s.1 s.2 = some true ↔ unsolvableStructure b = some false ∧ Clears r c b {s} := by
  have hd := rect_dims hb.rect hb.rpos
  obtain ⟨u, hu⟩ : ∃ u, unsolvableStructure b = some u := by
    unfold unsolvableStructure
    simp only
    rw [if_neg (by omega)]
    exact ⟨_, rfl⟩
  unfold isSolvable
  rw [hu]
  simp only [Option.bind_eq_bind, Option.bind_some]
  cases u with
  | true => simp
  | false =>
    obtain ⟨g, v, h1, h2, h3, -⟩ := run_clears hb hs hsg
    have h1' : refreshBoard b.view (List.replicate b.row (List.replicate b.col (10 : Int))) [(s.1, s.2)] = some g := h1
    simp only [Bool.false_eq_true, if_false, h1', Option.bind_some, pure, true_and]
    rw [← h3]
    have h2' : (if isVictory g b = true then some true else solvableLoop b (b.row * b.col + 1) g) = some v := h2
    rw [h2']
    simp

end Ms
