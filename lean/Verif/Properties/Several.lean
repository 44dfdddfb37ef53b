import Verif.Properties.Again

/-! # C91: several features, in any order -/

namespace Ms.Properties
open Ms Ms.Spec

variable {dist : Pos → Pos → ℚ} {v : View} {pix : Nat} {evs : List RawEv} {A : Replay}

/-- What the comments of an event become: `X i` is added to those of event `i`. -/
def Adds (X : Nat → List Comment) (F F' : Feat) : Prop := ∀ i, F'.comments[i]? = F.comments[i]?.map (· ++ X i)

section
variable (h : GoodVideo dist v pix evs A) (hd : ∀ p, dist p p = 0) (hd' : ∀ p q, 0 ≤ dist p q)
include h hd hd'

/-- **C91** What a feature other than `survive_poss` says about a video - or that it panics - does not depend on the features
asked for before: for each event it adds the same comments behind those that are there. -/
theorem C91_adds {f : Feature} (hf : f ≠ .survivePoss) :
    (∀ F, Annotated dist A (mines v).card pix F → F.run dist f = none) ∨
    ∃ X, ∀ F, Annotated dist A (mines v).card pix F → ∃ F', F.run dist f = some F' ∧ Adds X F F' := by
  classical
  -- it is enough to look at the events there are
  have key : ∀ {F F' : Feat} {X : Nat → List Comment}, Annotated dist A (mines v).card pix F → F.run dist f = some F' →
      (∀ (i : Nat) r cs, A.recs[i]? = some r → F.comments[i]? = some cs → F'.comments[i]? = some (cs ++ X i)) → Adds X F F' := by
    intro F F' X hF hrun hh i
    have hI := hF.inv
    have hI' := (Annotated.run hF hrun).inv
    by_cases hi : i < A.recs.length
    · have hcs := List.getElem?_eq_getElem (show i < F.comments.length by rw [hI.len]; exact hi)
      rw [hh i _ _ (List.getElem?_eq_getElem hi) hcs, hcs]
      rfl
    · rw [List.getElem?_eq_none (by rw [hI'.len]; omega), List.getElem?_eq_none (by rw [hI.len]; omega)]
      rfl
  cases f with
  | survivePoss => exact absurd rfl hf
  | highRiskGuess =>
    refine .inr ⟨fun i => ((A.recs[i]?).map fun r => if 2 ≤ i ∧ r.useful = 2 ∧ 51 / 100 ≤ A.risk (mines v).card pix r then
        [Comment.risky (1 - A.risk (mines v).card pix r)] else []).getD [], fun F hF => ?_⟩
    obtain ⟨F1, f1, f2⟩ := C56_high_risk h hF
    refine ⟨F1, f1, key hF f1 fun i r cs hr hcs => ?_⟩
    rw [f2 i r cs hr hcs, hr]
    rfl
  | jumpJudge =>
    refine .inr ⟨fun i => ((A.recs[i]?).map fun r => if 2 ≤ i ∧ 2 ≤ r.useful ∧ r.ev = .lr ∧
          ¬ BasicSafe (mines v).card (A.stream.getD r.prior []) (r.cell pix) ∧
          EnumSafe (mines v).card (A.stream.getD r.prior []) (r.cell pix) then [Comment.hardSafe] else []).getD [], fun F hF => ?_⟩
    obtain ⟨F1, f1, f2⟩ := C56_jump_judge h hF
    refine ⟨F1, f1, key hF f1 fun i r cs hr hcs => ?_⟩
    rw [f2 i r cs hr hcs, hr]
    simp only [Option.map_some, Option.getD_some]
  | needlessGuess =>
    refine .inr ⟨fun i => ((A.recs[i]?).map fun r => if 2 ≤ i ∧ r.useful = 2 ∧ r.ev = .lr ∧ 0 < A.risk (mines v).card pix r then
        [Comment.needless] else []).getD [], fun F hF => ?_⟩
    obtain ⟨F1, f1, f2⟩ := C56_needless_guess h hF
    refine ⟨F1, f1, key hF f1 fun i r cs hr hcs => ?_⟩
    rw [f2 i r cs hr hcs, hr]
    simp only [Option.map_some, Option.getD_some]
  | mouseTrace =>
    by_cases hne : A.recs = []
    · exact .inl fun F hF => (C57_mouse_trace hd hd' hF).1 hne
    refine .inr ⟨fun j => if hc : ∃ m, Consecutive (ClickAt A.recs) j m then
      wayComment (wayLength dist A.recs j hc.choose) (dist (pixelAt A.recs j) (pixelAt A.recs hc.choose)) else [], fun F hF => ?_⟩
    obtain ⟨F1, f1, f2, f3⟩ := (C57_mouse_trace hd hd' hF).2 hne
    refine ⟨F1, f1, key hF f1 fun i r cs hr hcs => ?_⟩
    by_cases hc : ∃ m, Consecutive (ClickAt A.recs) i m
    · simp only [dif_pos hc]
      exact f2 i _ cs hc.choose_spec hcs
    · simp only [dif_neg hc, List.append_nil]
      rw [f3 i (fun m hm => hc ⟨m, hm⟩), hcs]
  | visionTransfer =>
    by_cases hne : A.recs = []
    · exact .inl fun F hF => (C57_vision_transfer h hF).1 hne
    by_cases hX : ∃ X, ∀ F, Annotated dist A (mines v).card pix F → ∃ F', F.run dist .visionTransfer = some F' ∧ Adds X F F'
    · exact .inr hX
    refine absurd ⟨fun j => if ∃ m rj rm, Consecutive (OpenAt A.recs) j m ∧ A.recs[j]? = some rj ∧ A.recs[m]? = some rm ∧
        ((rj.x : Int) - rm.x) ^ 2 + ((rj.y : Int) - rm.y) ^ 2 ≥ 112 ^ 2 ∧
          ∃ q, (BasicSafe (mines v).card (A.stream.getD rm.prior []) q ∨ EnumSafe (mines v).card (A.stream.getD rm.prior []) q) ∧
            Within3 q (rj.cell pix) then [.transfer] else [], fun F hF => ?_⟩ hX
    obtain ⟨F1, f1, f2, f3⟩ := (C57_vision_transfer h hF).2 hne
    refine ⟨F1, f1, key hF f1 fun i r cs hr hcs => ?_⟩
    by_cases hc : ∃ m, Consecutive (OpenAt A.recs) i m
    · obtain ⟨m, hm⟩ := hc
      obtain ⟨rm, hrm, -⟩ := hm.2.2.1
      rw [f2 i m _ _ cs hm hr hrm hcs]
      refine congrArg (fun l => some (cs ++ l)) ?_
      refine if_congr ?_ rfl rfl
      constructor
      · intro hh
        exact ⟨m, r, rm, hm, hr, hrm, hh⟩
      · rintro ⟨m', rj', rm', a1, a2, a3, a4⟩
        have : m' = m := by
          by_contra hne'
          rcases Nat.lt_or_gt_of_ne hne' with hl | hl
          · exact hm.2.2.2 m' a1.2.1 hl a1.2.2.1
          · exact a1.2.2.2 m hm.2.1 hl hm.2.2.1
        subst this
        rw [hr, Option.some.injEq] at a2
        rw [hrm, Option.some.injEq] at a3
        subst a2 a3
        exact a4
    · rw [f3 i (fun m hm => hc ⟨m, hm⟩), hcs]
      rw [if_neg (by rintro ⟨m, -, -, hm, -⟩; exact hc ⟨m, hm⟩), List.append_nil]
  | superFLLocal =>
    by_cases hp : ∃ i r, 1 ≤ i ∧ A.recs[i]? = some r ∧ (FLPanic v A pix r ∨ TooFar A pix i)
    · exact .inl fun F hF => (C58_super_fl h.toPlainVideo hF).1.mpr hp
    refine .inr ⟨fun i => if hn : ∃ n, FLRun A pix i n then [.superFL hn.choose] else [], fun F hF => ?_⟩
    obtain ⟨g1, g2⟩ := C58_super_fl h.toPlainVideo hF
    cases hrun : F.run dist .superFLLocal with
    | none => exact absurd (g1.mp hrun) hp
    | some F' =>
      refine ⟨F', rfl, key hF hrun fun i r cs hr hcs => ?_⟩
      have f2 := g2 F' hrun i cs hcs
      by_cases hn : ∃ n, FLRun A pix i n
      · simp only [dif_pos hn]
        exact f2.1 _ hn.choose_spec
      · simp only [dif_neg hn, List.append_nil]
        exact f2.2 fun n hh => hn ⟨n, hh⟩
  | unknown =>
    refine .inr ⟨fun _ => [], fun F hF => ⟨F, rfl, fun i => ?_⟩⟩
    cases F.comments[i]? <;> simp

/-- **C91** Features asked for one after the other, without `survive_poss`: there are for each feature comments `X f i`, fixed by
the video, such that event `i` ends up with those of the features in the order asked; it panics iff one of the features panics
on the fresh video. -/
theorem C91_several : ∃ X : Feature → Nat → List Comment, ∀ fs : List Feature, Feature.survivePoss ∉ fs →
    (features dist (A.feat (mines v).card pix) fs = none ↔ ∃ f ∈ fs, (A.feat (mines v).card pix).run dist f = none) ∧
    ∀ F, features dist (A.feat (mines v).card pix) fs = some F → F.comments.length = evs.length ∧
      ∀ i < evs.length, F.comments[i]? = some (fs.flatMap (X · i)) := by
  classical
  have hlen : evs.length = A.recs.length := by rw [← (analyse_inv h.numbers h.analysed).raw]; simp
  set X : Feature → Nat → List Comment := fun f =>
    if hX : ∃ X, ∀ F, Annotated dist A (mines v).card pix F → ∃ F', F.run dist f = some F' ∧ Adds X F F' then hX.choose else fun _ => []
    with hXd
  -- from any annotated video on
  have main : ∀ (fs : List Feature), Feature.survivePoss ∉ fs → ∀ F, Annotated dist A (mines v).card pix F →
      (features dist F fs = none ↔ ∃ f ∈ fs, (A.feat (mines v).card pix).run dist f = none) ∧
      ∀ F', features dist F fs = some F' → Adds (fun i => fs.flatMap (X · i)) F F' ∧ F'.comments.length = A.recs.length := by
    intro fs
    induction fs with
    | nil =>
      intro _ F hF
      refine ⟨by simp [features], fun F' hF' => ?_⟩
      obtain rfl : F = F' := by simpa [features] using hF'
      refine ⟨fun i => ?_, hF.inv.len⟩
      cases F.comments[i]? <;> simp
    | cons f fs ih =>
      intro hn F hF
      rw [List.mem_cons, not_or] at hn
      have e : features dist F (f :: fs) = (F.run dist f).bind fun F1 => features dist F1 fs := by
        unfold features
        rw [List.foldlM_cons]
        rfl
      rcases C91_adds h hd hd' (f := f) (fun hh => hn.1 hh.symm) with hnone | hX
      · rw [e, hnone F hF]
        exact ⟨⟨fun _ => ⟨f, by simp, hnone _ .start⟩, fun _ => rfl⟩, fun F' hF' => by cases hF'⟩
      · obtain ⟨F1, f1, f2⟩ := (show ∀ F, Annotated dist A (mines v).card pix F → ∃ F', F.run dist f = some F' ∧ Adds (X f) F F' by
          rw [hXd]
          simp only [dif_pos hX]
          exact hX.choose_spec) F hF
        obtain ⟨F0, f0, -⟩ := hX.choose_spec _ .start
        obtain ⟨i1, i2⟩ := ih hn.2 F1 (.run hF f1)
        rw [e, f1]
        simp only [Option.bind_some]
        refine ⟨i1.trans ⟨fun ⟨g, g1, g2⟩ => ⟨g, by simp [g1], g2⟩, ?_⟩, fun F' hF' => ?_⟩
        · rintro ⟨g, g1, g2⟩
          rcases List.mem_cons.mp g1 with rfl | g1
          · rw [f0] at g2; cases g2
          · exact ⟨g, g1, g2⟩
        · obtain ⟨a1, a2⟩ := i2 F' hF'
          refine ⟨fun i => ?_, a2⟩
          rw [a1 i, f2 i, Option.map_map]
          refine congrArg (fun k => Option.map k F.comments[i]?) ?_
          funext cs
          simp
  refine ⟨X, fun fs hn => ?_⟩
  obtain ⟨m1, m2⟩ := main fs hn _ .start
  refine ⟨m1, fun F hF => ?_⟩
  obtain ⟨a1, a2⟩ := m2 F hF
  refine ⟨by rw [a2, hlen], fun i hi => ?_⟩
  rw [a1 i]
  simp only [Replay.feat, List.getElem?_map]
  rw [List.getElem?_eq_getElem (by omega)]
  simp

/-- **C91** In another order the same features give every event the same comments, in another order - or panic, too. -/
theorem C91_order {fs gs : List Feature} (hp : fs.Perm gs) (hn : Feature.survivePoss ∉ fs) :
    (features dist (A.feat (mines v).card pix) fs = none ∧ features dist (A.feat (mines v).card pix) gs = none) ∨
    ∃ F G, features dist (A.feat (mines v).card pix) fs = some F ∧ features dist (A.feat (mines v).card pix) gs = some G ∧
      List.Forall₂ List.Perm F.comments G.comments := by
  obtain ⟨X, hX⟩ := C91_several h hd hd'
  have hn' : Feature.survivePoss ∉ gs := fun hh => hn (hp.mem_iff.mpr hh)
  obtain ⟨a1, a2⟩ := hX fs hn
  obtain ⟨b1, b2⟩ := hX gs hn'
  have hiff : features dist (A.feat (mines v).card pix) fs = none ↔ features dist (A.feat (mines v).card pix) gs = none := by
    rw [a1, b1]
    simp only [hp.mem_iff]
  cases hF : features dist (A.feat (mines v).card pix) fs with
  | none => exact .inl ⟨rfl, hiff.mp hF⟩
  | some F =>
    cases hG : features dist (A.feat (mines v).card pix) gs with
    | none => rw [hiff.mpr hG] at hF; cases hF
    | some G =>
      refine .inr ⟨F, G, rfl, rfl, ?_⟩
      obtain ⟨l1, c1⟩ := a2 F hF
      obtain ⟨l2, c2⟩ := b2 G hG
      rw [List.forall₂_iff_get]
      refine ⟨by rw [l1, l2], fun i hi hi' => ?_⟩
      have e1 := c1 i (by omega)
      have e2 := c2 i (by omega)
      rw [List.getElem?_eq_getElem hi, Option.some.injEq] at e1
      rw [List.getElem?_eq_getElem hi', Option.some.injEq] at e2
      rw [List.get_eq_getElem, List.get_eq_getElem, e1, e2]
      exact hp.flatMap_right _

/-- **C91** A feature other than `survive_poss` asked for twice writes every comment twice. -/
theorem C91_twice {f : Feature} (hf : f ≠ .survivePoss) {F : Feat} (hF : Annotated dist A (mines v).card pix F) :
    (F.run dist f = none ∧ features dist F [f, f] = none) ∨
    ∃ F1 F2, ∃ X : Nat → List Comment, F.run dist f = some F1 ∧ features dist F [f, f] = some F2 ∧
      ∀ i < evs.length, ∃ cs, F.comments[i]? = some cs ∧ F1.comments[i]? = some (cs ++ X i) ∧ F2.comments[i]? = some (cs ++ X i ++ X i) := by
  have hlen : evs.length = A.recs.length := by rw [← (analyse_inv h.numbers h.analysed).raw]; simp
  have e : features dist F [f, f] = (F.run dist f).bind fun F1 => F1.run dist f := by
    unfold features
    simp only [List.foldlM_cons, List.foldlM_nil]
    cases F.run dist f with
    | none => rfl
    | some F1 =>
      show (F1.run dist f).bind some = F1.run dist f
      simp
  rcases C91_adds h hd hd' hf with hnone | ⟨X, hX⟩
  · rw [e, hnone F hF]
    exact .inl ⟨rfl, rfl⟩
  · obtain ⟨F1, f1, f2⟩ := hX F hF
    obtain ⟨F2, g1, g2⟩ := hX F1 (.run hF f1)
    refine .inr ⟨F1, F2, X, f1, by rw [e, f1]; exact g1, fun i hi => ?_⟩
    have hcs := List.getElem?_eq_getElem (show i < F.comments.length by rw [hF.inv.len]; omega)
    refine ⟨_, hcs, ?_, ?_⟩
    · rw [f2 i, hcs]
      rfl
    · rw [g2 i, f2 i, hcs]
      rfl

end

/-- **C91** `survive_poss` asked for twice in succession says the same as once. -/
theorem C91_survive_twice (h : GoodVideo dist v pix evs A) {F F1 : Feat} (hF : Annotated dist A (mines v).card pix F)
    (h1 : F.run dist .survivePoss = some F1) :
    ∃ F2, F1.run dist .survivePoss = some F2 ∧ F2.comments = F1.comments := by
  by_cases hne : evs = []
  · rw [(C56_survive h hF).1 hne] at h1
    cases h1
  obtain ⟨F1', fs, a1, a2, a3⟩ := (C56_survive h hF).2 hne
  rw [h1, Option.some.injEq] at a1
  subst a1
  obtain ⟨F2, fs', b1, b2, b3⟩ := (C56_survive h (.run hF h1)).2 hne
  refine ⟨F2, b1, ?_⟩
  rw [b3, a3, b2, ← a2, List.set_set]

/-- not void: on the video of a guess two features in either order -/
example : ((analyse taxi riskBoard.view 1 3 10 (clicksAt [(.mv, 0, 1), (.lc, 0, 1), (.lr, 0, 1)])).bind fun A =>
    (features taxi (A.feat 2 10) [.needlessGuess, .highRiskGuess]).bind fun F =>
      (features taxi (A.feat 2 10) [.highRiskGuess, .needlessGuess]).map fun G => (F.comments, G.comments)) =
    some ([[], [], [.needless, .risky (1 / 3)]], [[], [], [.risky (1 / 3), .needless]]) := by
  decide +kernel

/-- its hypotheses are met -/
example : ∃ A, GoodVideo taxi riskBoard.view 10 (clicksAt [(.mv, 0, 1), (.lc, 0, 1), (.lr, 0, 1)]) A ∧ (∀ p, taxi p p = 0) ∧ ∀ p q, 0 ≤ taxi p q := by
  have hs : (analyse taxi riskBoard.view 1 3 10 (clicksAt [(.mv, 0, 1), (.lc, 0, 1), (.lr, 0, 1)])).isSome = true := by decide +kernel
  obtain ⟨A, hA⟩ := Option.isSome_iff_exists.mp hs
  refine ⟨A, goodVideo_small ⟨by unfold Numbered; decide +kernel, by decide +kernel, by decide, hA⟩ (by decide +kernel)
    (by decide +kernel), fun p => by simp [taxi], fun p q => ?_⟩
  unfold taxi
  positivity

/-- **C91, refuted with `survive_poss`** it removes the comments of the last event, so the order matters: asked for last, it
leaves the needless guess out; asked for first, not. -/
theorem C91_survive_erases : ((analyse taxi guessBoard.view 1 2 10 (clicksAt [(.mv, 0, 1), (.lc, 0, 1), (.lr, 0, 1)])).bind fun A =>
    (features taxi (A.feat 1 10) [.needlessGuess, .survivePoss]).bind fun F =>
      (features taxi (A.feat 1 10) [.survivePoss, .needlessGuess]).map fun G => (F.comments, G.comments)) =
    some ([[], [], [.luck [] 1]], [[], [], [.luck [] 1, .needless]]) := by
  decide +kernel

/-- **C91, refuted for the comments** asking for the same feature twice does not say the same as asking once: the comment is
there twice. -/
theorem C91_comments_twice : ((analyse taxi guessBoard.view 1 2 10 (clicksAt [(.mv, 0, 1), (.lc, 0, 1), (.lr, 0, 1)])).bind fun A =>
    (features taxi (A.feat 1 10) [.needlessGuess, .needlessGuess]).map fun F => F.comments) = some [[], [], [.needless, .needless]] := by
  decide +kernel

end Ms.Properties
