import Verif.Lemmas.FLRun
import Verif.Properties.Misc

/-! # C56 to C58: `analyse_for_features` -/

namespace Ms.Properties
open Ms Ms.Spec Ms.Feat

variable {dist : Pos → Pos → ℚ} {v : View} {pix : Nat} {evs : List RawEv} {A : Replay} {F : Feat}

/-! ## C56 guesses -/

noncomputable section
open Classical

/-- the comments of `C56_high_risk` -/
private def riskSays (A : Replay) (k pix : Nat) (r : Rec) : List Comment :=
  if r.useful = 2 ∧ 51 / 100 ≤ A.risk k pix r then [.risky (1 - A.risk k pix r)] else []

private def jumpSays (A : Replay) (k pix : Nat) (r : Rec) : List Comment :=
  if 2 ≤ r.useful ∧ r.ev = .lr ∧ ¬ BasicSafe k (A.stream.getD r.prior []) (r.cell pix) ∧
    EnumSafe k (A.stream.getD r.prior []) (r.cell pix) then [.hardSafe] else []

private def needlessSays (A : Replay) (k pix : Nat) (r : Rec) : List Comment :=
  if r.useful = 2 ∧ r.ev = .lr ∧ 0 < A.risk k pix r then [.needless] else []

end

/-- **C56** What an analysis knows of an event that did something (level 1 or more): the board before it, with the same numbers
as the game had then; the mouse was on the board; an opening (level 2) was made on a cell without a number, a chord (level 3)
on one with a number. -/
theorem C56_position (h : GoodVideo dist v pix evs A) {i : Nat} {r : Rec} (hr : A.recs[i]? = some r) (hu : 1 ≤ r.useful) :
    ∃ g m0, A.stream[r.prior]? = some g ∧ play pix v (evs.take i) = some m0 ∧ SameNumbers g m0.gameBoard v.row v.col ∧
      r.cell pix ∈ grid v.row v.col ∧ r.useful ≤ 3 ∧ (r.useful = 2 → 10 ≤ g.get (r.cell pix).1 (r.cell pix).2) ∧
      (r.useful = 3 → g.get (r.cell pix).1 (r.cell pix).2 < 10) := by
  obtain ⟨g, m0, hm, h1, h2⟩ := (analyse_met h.numbers h.analysed).2 i r hr hu
  exact ⟨g, m0, hm.board, h1, h2, hm.cell, hm.level, hm.two, hm.three⟩

section
variable (h : GoodVideo dist v pix evs A)
include h

theorem feat_met {i : Nat} {r : Rec} (hr : A.recs[i]? = some r) (hu : 1 ≤ r.useful) :
    ∃ g, Met v pix A r g ∧ Askable v g ∧ A.stream.getD r.prior [] = g ∧ ∀ p, IsNumber (unmark g) p → InReach (unmark g) p := by
  obtain ⟨g, m0, hm, -, -⟩ := (analyse_met h.numbers h.analysed).2 i r hr hu
  have hg := List.mem_of_getElem? hm.board
  exact ⟨g, hm, stream_askable h.numbers h.row h.analysed hg, by rw [List.getD_eq_getElem?_getD, hm.board]; rfl, h.reach g hg⟩

theorem feat_poss {F : Feat} (hI : FInv A (mines v).card pix F) {i : Nat} {r : Rec} (hr : A.recs[i]? = some r) (hu : 1 ≤ r.useful) :
    ∃ F', F.possAt r.prior (r.y / F.pix) (r.x / F.pix) = some (F', some (A.risk (mines v).card pix r)) ∧
      FInv A (mines v).card pix F' ∧ F'.comments = F.comments := by
  obtain ⟨g, hm, ha, hg, hre⟩ := feat_met h hr hu
  rw [hI.pixEq]
  unfold Replay.risk
  rw [hg]
  exact possAt_some h.row h.mine hI hm.board ha hre hm.cell

/-- A cell with a risk is not known to be safe. -/
theorem feat_risk_unknown {i : Nat} {r : Rec} (hr : A.recs[i]? = some r) (hu : 1 ≤ r.useful)
    (hrisk : 0 < A.risk (mines v).card pix r) :
    ¬ Certain (unmark (A.stream.getD r.prior [])) (r.cell pix) false := by
  obtain ⟨g, hm, ha, hg, hre⟩ := feat_met h hr hu
  intro hc
  unfold Replay.risk at hrisk
  rw [hg] at hrisk hc
  split at hrisk
  · exact absurd hrisk (lt_irrefl _)
  · unfold mineShare at hrisk
    rw [show (layouts (unmark g) (mines v).card).filter (fun B => r.cell pix ∈ B) = ∅ from ?_] at hrisk
    · simp at hrisk
    · apply Finset.filter_false_of_mem
      intro B hB
      rw [layouts_mem hre ha.cons] at hB
      have := hc _ hB.2.2
      simpa using this

theorem feat_risk_three {i : Nat} {r : Rec} (hr : A.recs[i]? = some r) (hu : r.useful = 3) :
    A.risk (mines v).card pix r = 0 := by
  obtain ⟨g, hm, ha, hg, hre⟩ := feat_met h hr (by omega)
  unfold Replay.risk
  rw [hg, if_pos (hm.three hu)]

/-- **C56** `high_risk_guess` returns and comments exactly the successful openings (from the third event on) with a risk of at
least 51 %, naming the probability that the cell was safe.  A guess that failed has level 0 and is never commented. -/
theorem C56_high_risk (hF : Annotated dist A (mines v).card pix F) :
    ∃ F', F.run dist .highRiskGuess = some F' ∧ ∀ (i : Nat) r cs, A.recs[i]? = some r → F.comments[i]? = some cs →
      F'.comments[i]? = some (cs ++ if 2 ≤ i ∧ r.useful = 2 ∧ 51 / 100 ≤ A.risk (mines v).card pix r then
        [.risky (1 - A.risk (mines v).card pix r)] else []) := by
  have hp := h.pixPos
  have hs : ∀ F i r, FInv A (mines v).card pix F → A.recs[i]? = some r → ∃ F', riskyStep F i r = some F' ∧
      FInv A (mines v).card pix F' ∧ ∀ j : Nat, F'.comments[j]? = (F.comments[j]?).map fun cs => if j = i then cs ++ riskSays A (mines v).card pix r else cs := by
    intro F i r hI hr
    unfold riskyStep
    rw [if_neg (by rw [hI.pixEq]; omega)]
    by_cases hu : r.useful ≥ 2
    · rw [if_pos hu]
      obtain ⟨F1, f1, f2, f3⟩ := feat_poss h hI hr (by omega)
      obtain ⟨F2, e1⟩ := sayIf_some (o := riskComment (some (A.risk (mines v).card pix r))) f2 (List.getElem?_eq_some_iff.mp hr).1
      obtain ⟨e2, e3⟩ := sayIf_inv f2 e1
      refine ⟨F2, by rw [f1]; exact e1, e2, fun j => ?_⟩
      rw [e3, f3]
      congr 2
      funext cs
      congr 2
      unfold riskComment riskSays
      by_cases h2 : r.useful = 2
      · by_cases h3 : 51 / 100 ≤ A.risk (mines v).card pix r <;> simp [h2, h3]
      · obtain ⟨-, -, -, -, -, -, h3, -⟩ := C56_position h hr (by omega)
        rw [feat_risk_three h hr (by omega)]
        norm_num [h2]
    · rw [if_neg hu]
      exact ⟨F, rfl, hI, fun j => by simp [riskSays, show r.useful ≠ 2 by omega]⟩
  obtain ⟨F', f1, -, f3⟩ := loop_says (f := fun _ r => riskSays A (mines v).card pix r) hs (lo := 2) hF.inv
  refine ⟨F', f1, fun i r cs hr hcs => ?_⟩
  rw [f3 i r cs hr hcs]
  by_cases hi : 2 ≤ i <;> simp [hi, riskSays]

/-- The lists of the position met by an event. -/
theorem feat_lists {i : Nat} {r : Rec} (hr : A.recs[i]? = some r) (hu : 1 ≤ r.useful) :
    ∃ bn bi en, Lists (mines v).card (A.stream.getD r.prior []) bn bi en ∧ A.stream[r.prior]? = some (A.stream.getD r.prior []) ∧
      (∀ q, BasicSafe (mines v).card (A.stream.getD r.prior []) q ↔ q ∈ bn) ∧
      ∀ q, EnumSafe (mines v).card (A.stream.getD r.prior []) q ↔ q ∈ en := by
  obtain ⟨g, hm, ha, hg, hre⟩ := feat_met h hr hu
  rw [hg]
  obtain ⟨bn, bi, en, hl⟩ := lists h.row (mines v).card ha
  refine ⟨bn, bi, en, hl, hm.board, fun q => ?_, fun q => ?_⟩
  · unfold BasicSafe
    rw [hl.basicNot _ .set]
    simp
  · unfold EnumSafe
    rw [hl.enumNot _ .set]
    simp

open Classical in
/-- **C56** `jump_judge` returns and comments exactly the openings by the left button (from the third event on) of a cell that the
enumeration finds safe in the position before and the basic rules do not; nothing is ever said about flags. -/
theorem C56_jump_judge (hF : Annotated dist A (mines v).card pix F) :
    ∃ F', F.run dist .jumpJudge = some F' ∧ ∀ (i : Nat) r cs, A.recs[i]? = some r → F.comments[i]? = some cs →
      F'.comments[i]? = some (cs ++ if 2 ≤ i ∧ 2 ≤ r.useful ∧ r.ev = .lr ∧
          ¬ BasicSafe (mines v).card (A.stream.getD r.prior []) (r.cell pix) ∧
          EnumSafe (mines v).card (A.stream.getD r.prior []) (r.cell pix) then [.hardSafe] else []) := by
  have hp := h.pixPos
  have hs : ∀ F i r, FInv A (mines v).card pix F → A.recs[i]? = some r → ∃ F', jumpStep F i r = some F' ∧
      FInv A (mines v).card pix F' ∧ ∀ j : Nat, F'.comments[j]? = (F.comments[j]?).map fun cs => if j = i then cs ++ jumpSays A (mines v).card pix r else cs := by
    intro F i r hI hr
    unfold jumpStep
    rw [if_neg (by rw [hI.pixEq]; omega)]
    by_cases hu : r.useful ≥ 2 ∧ r.ev = .lr
    · rw [if_pos hu]
      obtain ⟨bn, bi, en, hl, hg, hb, he⟩ := feat_lists h hr (by omega)
      obtain ⟨F1, f1, f2, f3⟩ := onlySecond_some (p := (r.y / F.pix, r.x / F.pix)) hI hg .basicNot .enumNot ask_basicNot ask_enumNot
        hl.basicNot hl.enumNot
      obtain ⟨F2, e1⟩ := sayIf_some (o := if (decide ((r.y / F.pix, r.x / F.pix) ∉ bn ∧ (r.y / F.pix, r.x / F.pix) ∈ en)) then
        some Comment.hardSafe else none) f2 (List.getElem?_eq_some_iff.mp hr).1
      obtain ⟨e2, e3⟩ := sayIf_inv f2 e1
      refine ⟨F2, by rw [f1]; exact e1, e2, fun j => ?_⟩
      rw [e3, f3]
      congr 2
      funext cs
      congr 2
      unfold jumpSays
      rw [hb, he, hI.pixEq]
      show (if (decide (r.cell pix ∉ bn ∧ r.cell pix ∈ en)) = true then some Comment.hardSafe else none).toList = _
      by_cases hc : r.cell pix ∉ bn ∧ r.cell pix ∈ en <;> simp [hc, hu.1, hu.2]
    · rw [if_neg hu]
      have hnil : jumpSays A (mines v).card pix r = [] := by
        unfold jumpSays
        rw [if_neg (fun hh => hu ⟨hh.1, hh.2.1⟩)]
      split
      · rename_i hu1
        obtain ⟨bn, bi, en, hl, hg, hb, he⟩ := feat_lists h hr (by omega)
        obtain ⟨F1, f1, f2, f3⟩ := onlySecond_some (p := (r.y / F.pix, r.x / F.pix)) hI hg .basicIs .enumIs ask_basicIs ask_enumIs
          hl.basicIs hl.enumIs
        refine ⟨F1, by rw [f1]; simp [sayIf], f2, fun j => ?_⟩
        rw [f3, hnil]
        simp
      · refine ⟨F, rfl, hI, fun j => ?_⟩
        rw [hnil]; simp
  obtain ⟨F', f1, -, f3⟩ := loop_says (f := fun _ r => jumpSays A (mines v).card pix r) hs (lo := 2) hF.inv
  refine ⟨F', f1, fun i r cs hr hcs => ?_⟩
  rw [f3 i r cs hr hcs]
  by_cases hi : 2 ≤ i
  · rw [if_pos hi]; unfold jumpSays; congr 2; simp [hi]
  · rw [if_neg hi, if_neg (fun h => hi h.1)]

/-- **C56** The cells named above really are safe: a cell listed by the basic rules or the enumeration is safe in every layout that
explains the numbers of the position before; and conversely, while at most 55 covered cells lie next to numbers. -/
theorem C56_known_safe {i : Nat} {r : Rec} (hr : A.recs[i]? = some r) (hu : 1 ≤ r.useful) (q : Pos) :
    (BasicSafe (mines v).card (A.stream.getD r.prior []) q ∨ EnumSafe (mines v).card (A.stream.getD r.prior []) q →
      Frontier (unmark (A.stream.getD r.prior [])) q ∧ Certain (unmark (A.stream.getD r.prior [])) q false) ∧
    (FewFrontier (unmark (A.stream.getD r.prior [])) → Frontier (unmark (A.stream.getD r.prior [])) q →
      Certain (unmark (A.stream.getD r.prior [])) q false →
      BasicSafe (mines v).card (A.stream.getD r.prior []) q ∨ EnumSafe (mines v).card (A.stream.getD r.prior []) q) := by
  obtain ⟨bn, bi, en, hl, -, hb, he⟩ := feat_lists h hr hu
  rw [hb, he]
  refine ⟨?_, fun h1 h2 h3 => hl.all h1 q h2 h3⟩
  rintro (h1 | h1)
  · exact hl.safeB q h1
  · exact hl.safeE q h1

/-- **C56** `needless_guess` returns and comments exactly the successful openings by the left button (from the third event on) of a
cell with a risk - whether or not any safe cell was known. -/
theorem C56_needless_guess (hF : Annotated dist A (mines v).card pix F) :
    ∃ F', F.run dist .needlessGuess = some F' ∧ ∀ (i : Nat) r cs, A.recs[i]? = some r → F.comments[i]? = some cs →
      F'.comments[i]? = some (cs ++ if 2 ≤ i ∧ r.useful = 2 ∧ r.ev = .lr ∧ 0 < A.risk (mines v).card pix r then
        [.needless] else []) := by
  have hp := h.pixPos
  have hs : ∀ F i r, FInv A (mines v).card pix F → A.recs[i]? = some r → ∃ F', needlessStep F i r = some F' ∧
      FInv A (mines v).card pix F' ∧ ∀ j : Nat, F'.comments[j]? = (F.comments[j]?).map fun cs => if j = i then cs ++ needlessSays A (mines v).card pix r else cs := by
    intro F i r hI hr
    unfold needlessStep
    by_cases hu : r.useful ≥ 2 ∧ r.ev = .lr
    · rw [if_pos hu, if_neg (by rw [hI.pixEq]; omega)]
      obtain ⟨F1, f1, f2, f3⟩ := feat_poss h hI hr (by omega)
      obtain ⟨-, -, -, -, -, -, h3, -⟩ := C56_position h hr (by omega)
      rw [f1]
      simp only [Option.bind_some, Option.any_some, decide_eq_true_eq]
      by_cases hrisk : 0 < A.risk (mines v).card pix r
      · have h2 : r.useful = 2 := by
          by_contra hne
          rw [feat_risk_three h hr (by omega)] at hrisk
          exact absurd hrisk (lt_irrefl _)
        rw [if_pos hrisk]
        obtain ⟨bn, bi, en, hl, hg, hb, he⟩ := feat_lists h hr (by omega)
        obtain ⟨F2, e1, e2, e3⟩ := inNeither_some (p := (r.y / F.pix, r.x / F.pix)) f2 hg hl
        have hunk := feat_risk_unknown h hr (by omega) hrisk
        have hn : (r.y / F.pix, r.x / F.pix) ∉ bn ∧ (r.y / F.pix, r.x / F.pix) ∉ en := by
          rw [hI.pixEq]
          exact ⟨fun hm => hunk (hl.safeB _ hm).2, fun hm => hunk (hl.safeE _ hm).2⟩
        obtain ⟨F3, d1⟩ := sayIf_some (o := some Comment.needless) e2 (List.getElem?_eq_some_iff.mp hr).1
        obtain ⟨d2, d3⟩ := sayIf_inv e2 d1
        refine ⟨F3, by rw [f2.pixEq, ← hI.pixEq, e1]; simp only [Option.bind_some, hn]; simpa using d1, d2, fun j => ?_⟩
        rw [d3, e3, f3]
        simp [needlessSays, h2, hu.2, hrisk]
      · rw [if_neg hrisk]
        exact ⟨F1, rfl, f2, fun j => by rw [f3]; simp [needlessSays, hrisk]⟩
    · rw [if_neg hu]
      refine ⟨F, rfl, hI, fun j => ?_⟩
      have : ¬ (r.useful = 2 ∧ r.ev = .lr ∧ 0 < A.risk (mines v).card pix r) := fun hh => hu ⟨by omega, hh.2.1⟩
      simp [needlessSays, this]
  obtain ⟨F', f1, -, f3⟩ := loop_says (f := fun _ r => needlessSays A (mines v).card pix r) hs (lo := 2) hF.inv
  refine ⟨F', f1, fun i r cs hr hcs => ?_⟩
  rw [f3 i r cs hr hcs]
  by_cases hi : 2 ≤ i <;> simp [hi, needlessSays]

/-- **C56** `survive_poss` panics on a video without events; otherwise it replaces the comments of the last event by the factors 1 -
risk of the left clicks that opened something, the first one left out and those without risk, and their product. -/
theorem C56_survive (hF : Annotated dist A (mines v).card pix F) :
    (evs = [] → F.run dist .survivePoss = none) ∧
    (evs ≠ [] → ∃ F' fs, F.run dist .survivePoss = some F' ∧
      fs = (A.recs.filter fun r => decide (r.ev = .lr ∧ r.useful > 0)).tail.flatMap (fun r =>
        if 0 < A.risk (mines v).card pix r ∧ A.risk (mines v).card pix r < 1 then [1 - A.risk (mines v).card pix r] else []) ∧
      F'.comments = F.comments.set (evs.length - 1) [.luck fs fs.prod]) := by
  have hI := hF.inv
  have hp := h.pixPos
  have hlen : evs.length = A.recs.length := by rw [← (analyse_inv h.numbers h.analysed).raw]; simp
  set fac : Rec → List ℚ := fun r =>
    if 0 < A.risk (mines v).card pix r ∧ A.risk (mines v).card pix r < 1 then [1 - A.risk (mines v).card pix r] else [] with hfac
  set ok : Rec → Bool := fun r => decide (r.ev = .lr ∧ r.useful > 0) with hok
  have hloop : ∃ T, (rng 0 (0 + A.recs.length)).foldlM (m := Option) luckStep (F, [], false) = some T ∧
      (FInv A (mines v).card pix T.1 ∧ T.1.comments = F.comments ∧
        T.2.1 = ((A.recs.take (0 + A.recs.length)).filter ok).tail.flatMap fac ∧
        T.2.2 = !((A.recs.take (0 + A.recs.length)).filter ok).isEmpty) := by
    refine foldlM_rng 0 (fun i (T : Feat × List ℚ × Bool) => FInv A (mines v).card pix T.1 ∧ T.1.comments = F.comments ∧
        T.2.1 = ((A.recs.take i).filter ok).tail.flatMap fac ∧ T.2.2 = !((A.recs.take i).filter ok).isEmpty)
      A.recs.length ⟨hI, rfl, by simp, by simp⟩ ?_
    rintro i ⟨F1, fs, b⟩ - hi ⟨J, J2, J3, J4⟩
    simp only at J J2 J3 J4
    have hr := List.getElem?_eq_getElem (show i < A.recs.length by omega)
    set r := A.recs[i] with hrdef
    have htake : A.recs.take (i + 1) = A.recs.take i ++ [r] := by
      rw [List.take_succ, hr]; rfl
    rw [htake, List.filter_append]
    unfold luckStep
    simp only [J.recs, hr, Option.bind_some]
    by_cases hlr : r.ev = .lr ∧ r.useful > 0
    · have hokr : [r].filter ok = [r] := by simp [hok, hlr]
      rw [if_pos hlr, hokr]
      by_cases hb : b = false
      · rw [if_pos hb]
        have he : (A.recs.take i).filter ok = [] := by
          rw [hb] at J4
          simpa using J4
        rw [he] at J3 ⊢
        exact ⟨_, rfl, J, J2, by simpa using J3, by simp⟩
      · rw [if_neg hb, if_neg (by rw [J.pixEq]; omega)]
        obtain ⟨F2, f1, f2, f3⟩ := feat_poss h J hr (by omega)
        have hne : (A.recs.take i).filter ok ≠ [] := by
          intro he
          rw [he] at J4
          exact hb (by simpa using J4)
        rw [f1]
        refine ⟨_, rfl, f2, f3.trans J2, ?_, by simp⟩
        rw [List.tail_append_of_ne_nil hne, List.flatMap_append, ← J3]
        simp [luckFactor, hfac]
    · have hokr : [r].filter ok = [] := by simp only [hok, List.filter_cons, hlr]; simp
      rw [if_neg hlr, hokr, List.append_nil]
      exact ⟨_, rfl, J, J2, J3, J4⟩
  obtain ⟨⟨F1, fs, b⟩, t1, J, J2, J3, J4⟩ := hloop
  simp only at J J2 J3 J4
  rw [Nat.zero_add] at t1
  rw [Nat.zero_add, List.take_length] at J3
  have hrun : F.run dist .survivePoss =
      if F1.comments.length = 0 then none
      else some { F1 with comments := F1.comments.set (F1.comments.length - 1) [.luck fs fs.prod] } := by
    simp only [Feat.run, Feat.survive, hI.recs, t1, Option.bind_eq_bind, Option.bind_some, Option.pure_def]
  rw [hrun, J.len, ← hlen]
  refine ⟨fun he => by rw [he]; rfl, fun hne => ?_⟩
  rw [if_neg (by simpa using hne)]
  exact ⟨_, fs, rfl, J3, by rw [J2]⟩

end

/-! ## C57 the mouse -/

/-- What the way of length `way` between two clicks at distance `s` gets. -/
def wayComment (way s : ℚ) : List Comment :=
  if s = 0 ∧ way ≠ 0 then [.veryCurved none]
  else if s = 0 then []
  else if 7 * s < way then [.veryCurved (some (way / s))]
  else if 7 / 2 * s < way then [.curved (way / s)]
  else []

theorem traceComment_eq {way s : ℚ} (hs : 0 ≤ s) : (traceComment way s).toList = wayComment way s := by
  unfold traceComment wayComment
  by_cases h0 : s = 0
  · by_cases h1 : way = 0 <;> simp [h0, h1]
  have hpos : 0 < s := lt_of_le_of_ne hs (Ne.symm h0)
  simp only [h0, if_false, false_and]
  have e1 : way / s > 7 ↔ 7 * s < way := by rw [gt_iff_lt, lt_div_iff₀ hpos]
  have e2 : way / s > 7 / 2 ↔ 7 / 2 * s < way := by rw [gt_iff_lt, lt_div_iff₀ hpos]
  by_cases h1 : 7 * s < way
  · rw [if_pos h1, if_pos (e1.mpr h1)]; rfl
  rw [if_neg h1, if_neg (fun h => h1 (e1.mp h))]
  by_cases h2 : 7 / 2 * s < way
  · rw [if_pos h2, if_pos (e2.mpr h2)]; rfl
  rw [if_neg h2, if_neg (fun h => h2 (e2.mp h))]
  split
  · rename_i h3
    rw [if_neg (by intro h4; linarith)]; rfl
  · rfl

/-- **C57** `mouse_trace` panics on a video without events; otherwise it returns, and for each two consecutive clicks (a release of
the left button, a press or release of the right one; the first event counts as one) comments the first of the two on the
length of the mouse's way from it to the second compared to the distance: more than 7 times, or more than 3.5 times.
Nothing else is commented; in particular no way is ever called straight. -/
theorem C57_mouse_trace {k : Nat} (hd : ∀ p, dist p p = 0) (hd' : ∀ p q, 0 ≤ dist p q) (hF : Annotated dist A k pix F) :
    (A.recs = [] → F.run dist .mouseTrace = none) ∧
    (A.recs ≠ [] → ∃ F', F.run dist .mouseTrace = some F' ∧
      (∀ j m cs, Consecutive (ClickAt A.recs) j m → F.comments[j]? = some cs →
        F'.comments[j]? = some (cs ++ wayComment (wayLength dist A.recs j m) (dist (pixelAt A.recs j) (pixelAt A.recs m)))) ∧
      ∀ j, (∀ m, ¬ Consecutive (ClickAt A.recs) j m) → F'.comments[j]? = F.comments[j]?) := by
  have hI := hF.inv
  constructor
  · intro hnil
    simp [Feat.run, Feat.mouseTrace, hI.recs, hnil]
  intro hne
  have hlen : 0 < A.recs.length := List.length_pos_iff.mpr hne
  have hr0 := List.getElem?_eq_getElem hlen
  set said : Nat → Nat → List Comment := fun j m =>
    wayComment (wayLength dist A.recs j m) (dist (pixelAt A.recs j) (pixelAt A.recs m)) with hsays
  have h00 : said 0 0 = [] := by simp [hsays, wayComment, wayLength, hd]
  have hpt : ∀ {i : Nat} {r : Rec}, A.recs[i]? = some r → pixelAt A.recs i = (r.x, r.y) := by
    intro i r hr
    simp [pixelAt, hr]
  obtain ⟨⟨F', T⟩, t1, -, -, -, -, hQ⟩ := foldlM_rng (f := traceStep dist) 0 (fun i T => FInv A k pix T.1 ∧
      T.2.click = pixelAt A.recs T.2.clickId ∧ T.2.move = pixelAt A.recs (i - 1) ∧
      T.2.path = wayLength dist A.recs T.2.clickId (i - 1) ∧ Pairs (ClickAt A.recs) said F T.1 T.2.clickId i)
      A.recs.length (s := (F, ⟨(A.recs[0].x, A.recs[0].y), 0, (A.recs[0].x, A.recs[0].y), 0⟩))
      ⟨hI, (hpt hr0).symm, (hpt hr0).symm, by simp [wayLength], .zero⟩ (by
    rintro i ⟨F1, T⟩ - hi ⟨J, J1, J2, J3, J4⟩
    simp only at J J1 J2 J3 J4
    have hi' : i < A.recs.length := by omega
    have hr := List.getElem?_eq_getElem hi'
    set r := A.recs[i] with hrdef
    have hci : T.clickId ≤ i := by rcases J4.lt with h | h <;> omega
    have hpath : T.path + dist T.move (r.x, r.y) = wayLength dist A.recs T.clickId i := by
      rw [J3, J2, ← hpt hr]
      rcases Nat.eq_zero_or_pos i with h0 | h0
      · subst h0
        have : T.clickId = 0 := by omega
        rw [this]
        simp [wayLength, hd]
      · have hlt : T.clickId ≤ i - 1 := by rcases J4.lt with h | h <;> omega
        unfold wayLength
        conv_rhs => rw [show i = i - 1 + 1 by omega, Finset.sum_Ico_succ_top hlt]
        rw [show i - 1 + 1 = i by omega]
    unfold traceStep
    simp only [J.recs, hr, Option.bind_some]
    by_cases hc : r.ev = .lr ∨ r.ev = .rc ∨ r.ev = .rr
    · rw [if_pos hc]
      obtain ⟨F2, e1⟩ := sayIf_some (o := traceComment (T.path + dist T.move (r.x, r.y)) (dist T.click (r.x, r.y))) (i := T.clickId) J (by omega)
      obtain ⟨e2, e3⟩ := sayIf_inv J e1
      rw [e1]
      refine ⟨_, rfl, e2, (hpt hr).symm, by simpa using (hpt hr).symm, by simp [wayLength], ?_⟩
      refine J4.hit ⟨r, hr, hc⟩ h00 fun j => ?_
      rw [e3]
      congr 1
      funext cs
      rw [traceComment_eq (hd' _ _), hpath, J1, ← hpt hr]
    · rw [if_neg hc]
      refine ⟨_, rfl, J, J1, by simpa using (hpt hr).symm, by simpa using hpath, J4.skip ?_⟩
      rintro ⟨r', hr', hc'⟩
      rw [hr, Option.some.injEq] at hr'
      rw [← hr'] at hc'
      exact hc hc')
  rw [Nat.zero_add] at t1 hQ
  refine ⟨F', ?_, fun j m cs hc hcs => ?_, fun j hj => hQ.other j fun m _ => hj m⟩
  · simp only [Feat.run, Feat.mouseTrace, hI.recs, hr0, t1, Option.bind_eq_bind, Option.bind_some, Option.pure_def]
  · obtain ⟨r, hr, -⟩ := hc.2.2.1
    rw [hQ.pair j m (List.getElem?_eq_some_iff.mp hr).1 hc, hcs]
    rfl

/-- At most 3 rows and 3 columns apart. -/
def Within3 (p q : Pos) : Prop := |(p.1 : Int) - q.1| ≤ 3 ∧ |(p.2 : Int) - q.2| ≤ 3

theorem within3_iff {p q : Pos} : within3 p q = true ↔ Within3 p q := by
  unfold within3 Within3
  rw [decide_eq_true_eq, abs_le, abs_le]
  omega

open Classical in
/-- **C57** `vision_transfer` panics on a video without events; otherwise it returns, and for each two consecutive events that opened
cells (the first event counts as one) comments the first of the two exactly if the second is at least 112 pixels away and a cell
within 3 rows and columns of the first one is known to be safe on the board before the second. -/
theorem C57_vision_transfer (h : GoodVideo dist v pix evs A) (hF : Annotated dist A (mines v).card pix F) :
    (A.recs = [] → F.run dist .visionTransfer = none) ∧
    (A.recs ≠ [] → ∃ F', F.run dist .visionTransfer = some F' ∧
      (∀ j m rj rm cs, Consecutive (OpenAt A.recs) j m → A.recs[j]? = some rj → A.recs[m]? = some rm → F.comments[j]? = some cs →
        F'.comments[j]? = some (cs ++ if ((rj.x : Int) - rm.x) ^ 2 + ((rj.y : Int) - rm.y) ^ 2 ≥ 112 ^ 2 ∧
          ∃ q, (BasicSafe (mines v).card (A.stream.getD rm.prior []) q ∨ EnumSafe (mines v).card (A.stream.getD rm.prior []) q) ∧
            Within3 q (rj.cell pix) then [.transfer] else [])) ∧
      ∀ j, (∀ m, ¬ Consecutive (OpenAt A.recs) j m) → F'.comments[j]? = F.comments[j]?) := by
  have hI := hF.inv
  have hp := h.pixPos
  constructor
  · intro hnil
    simp [Feat.run, Feat.visionTransfer, hI.recs, hnil]
  intro hne
  have hlen : 0 < A.recs.length := List.length_pos_iff.mpr hne
  have hr0 := List.getElem?_eq_getElem hlen
  set said : Nat → Nat → List Comment := fun j m =>
    match A.recs[j]?, A.recs[m]? with
    | some rj, some rm => if ((rj.x : Int) - rm.x) ^ 2 + ((rj.y : Int) - rm.y) ^ 2 ≥ 112 ^ 2 ∧
          ∃ q, (BasicSafe (mines v).card (A.stream.getD rm.prior []) q ∨ EnumSafe (mines v).card (A.stream.getD rm.prior []) q) ∧
            Within3 q (rj.cell pix) then [.transfer] else []
    | _, _ => [] with hsays
  have h00 : said 0 0 = [] := by simp [hsays, hr0]
  obtain ⟨⟨F', T⟩, t1, -, -, hQ⟩ := foldlM_rng (f := lookStep) 0 (fun i T => FInv A (mines v).card pix T.1 ∧
      (∃ r, A.recs[T.2.clickId]? = some r ∧ T.2.click = (r.y, r.x) ∧ T.2.cell = r.cell pix) ∧
      Pairs (OpenAt A.recs) said F T.1 T.2.clickId i)
      A.recs.length (s := (F, ⟨(A.recs[0].y, A.recs[0].x), (A.recs[0].y / F.pix, A.recs[0].x / F.pix), 0⟩))
      ⟨hI, ⟨_, hr0, rfl, by rw [hI.pixEq]; rfl⟩, .zero⟩ (by
    rintro i ⟨F1, T⟩ - hi ⟨J, ⟨rc, J1, J2, J3⟩, J4⟩
    simp only at J J1 J2 J3 J4
    have hi' : i < A.recs.length := by omega
    have hr := List.getElem?_eq_getElem hi'
    set r := A.recs[i] with hrdef
    unfold lookStep
    simp only [J.recs, hr, Option.bind_some]
    by_cases hu : r.useful ≥ 2
    · rw [if_pos hu]
      obtain ⟨bn, bi, en, hl, hg, hb, he⟩ := feat_lists h hr (by omega)
      have hsay : ∃ F2, F1.lookSay T r.prior (r.y, r.x) = some F2 ∧ FInv A (mines v).card pix F2 ∧
          ∀ j, F2.comments[j]? = (F1.comments[j]?).map fun cs => if j = T.clickId then cs ++ said T.clickId i else cs := by
        unfold lookSay
        have hd2 : dist2 T.click (r.y, r.x) = ((rc.x : Int) - r.x) ^ 2 + ((rc.y : Int) - r.y) ^ 2 := by
          rw [J2]; unfold dist2; simp only; ring
        have hss : said T.clickId i = if ((rc.x : Int) - r.x) ^ 2 + ((rc.y : Int) - r.y) ^ 2 ≥ 112 ^ 2 ∧
          ∃ q, (BasicSafe (mines v).card (A.stream.getD r.prior []) q ∨ EnumSafe (mines v).card (A.stream.getD r.prior []) q) ∧
            Within3 q (rc.cell pix) then [.transfer] else [] := by
          simp only [hsays, J1, hr]
        rw [hd2, hss]
        by_cases hfar : ((rc.x : Int) - r.x) ^ 2 + ((rc.y : Int) - r.y) ^ 2 ≥ 112 ^ 2
        · rw [if_pos hfar]
          obtain ⟨F2, f1, f2, f3⟩ := safeNear_some (l := T.cell) J hg hl
          have hiff : (∃ q ∈ bn ++ en, within3 q T.cell = true) ↔
              ∃ q, (BasicSafe (mines v).card (A.stream.getD r.prior []) q ∨ EnumSafe (mines v).card (A.stream.getD r.prior []) q) ∧
                Within3 q (rc.cell pix) := by
            simp only [hb, he, List.mem_append, within3_iff, J3]
          obtain ⟨F3, d1⟩ := sayIf_some (i := T.clickId)
            (o := if (decide (∃ q ∈ bn ++ en, within3 q T.cell = true)) = true then some Comment.transfer else none) f2
            (List.getElem?_eq_some_iff.mp J1).1
          obtain ⟨d2, d3⟩ := sayIf_inv f2 d1
          refine ⟨F3, ?_, d2, fun j => ?_⟩
          · rw [f1, Option.bind_eq_bind, Option.bind_some]; exact d1
          · rw [d3, f3]
            congr 1
            funext cs
            refine if_congr Iff.rfl (congrArg _ ?_) rfl
            by_cases hq : ∃ q ∈ bn ++ en, within3 q T.cell = true
            · rw [if_pos (decide_eq_true hq), if_pos ⟨hfar, hiff.mp hq⟩]; rfl
            · rw [if_neg (by rw [decide_eq_true_eq]; exact hq), if_neg (fun hh => hq (hiff.mpr hh.2))]; rfl
        · rw [if_neg hfar]
          exact ⟨F1, rfl, J, fun j => by rw [if_neg (fun hh => hfar hh.1)]; simp⟩
      obtain ⟨F2, f1, f2, f3⟩ := hsay
      rw [f1]
      refine ⟨_, rfl, f2, ⟨r, hr, rfl, by simp only; rw [f2.pixEq]; rfl⟩, J4.hit ⟨r, hr, hu⟩ h00 f3⟩
    · rw [if_neg hu]
      refine ⟨_, rfl, J, ⟨rc, J1, J2, J3⟩, J4.skip ?_⟩
      rintro ⟨r', hr', hc'⟩
      rw [hr, Option.some.injEq] at hr'
      rw [← hr'] at hc'
      exact hu hc')
  rw [Nat.zero_add] at t1 hQ
  refine ⟨F', ?_, fun j m rj rm cs hc hj hm hcs => ?_, fun j hj => hQ.other j fun m _ => hj m⟩
  · simp only [Feat.run, Feat.visionTransfer, hI.recs, hr0, Option.bind_eq_bind, Option.bind_some, Option.pure_def]
    rw [if_neg (by rw [hI.pixEq]; omega), t1]
    rfl
  · rw [hQ.pair j m (List.getElem?_eq_some_iff.mp hm).1 hc, hcs]
    simp only [hsays, hj, hm]
    rfl

/-! ## C58 runs of flags and chords -/

section
variable (h : PlainVideo dist v pix evs A)
include h

theorem plain_stream (k i : Nat) {r : Rec} (hr : A.recs[i]? = some r) :
    ∃ g, A.stream[r.prior]? = some g ∧ Rect g v.row v.col ∧ ∀ G, Asked k g G → G.board = g := by
  obtain ⟨m0, m, -, -, -, -, -, -, -, -, -, hn, hl, -⟩ := (analyse_inv h.numbers h.analysed).events i r hr
  have hlt : r.prior < A.stream.length := by omega
  have ha := stream_askable h.numbers h.row h.analysed (List.getElem_mem hlt)
  refine ⟨_, List.getElem?_eq_getElem hlt, ha.rect, ?_⟩
  obtain ⟨_, _, _, -, -, -, -, -, hG⟩ := C53_certain _ v.row v.col k ha.rect h.row ha.cons
  exact fun G hg => (hG G hg).1

/-- An event is dangerous for `super_fl_local`: a press of the right button off the board, or a chord on a cell of the last column
that no orthogonal neighbour beats. -/
def FLPanic (v : View) (A : Replay) (pix : Nat) (r : Rec) : Prop :=
  (r.ev = .rc ∧ r.cell pix ∉ grid v.row v.col) ∨
  (r.useful = 3 ∧ r.ev ≠ .mv ∧ (r.cell pix).2 + 1 = v.col ∧ ∀ q ∈ grid v.row v.col, SideBySide (r.cell pix) q →
    chordGain (A.stream.getD r.prior []) q ≤ chordGain (A.stream.getD r.prior []) (r.cell pix))

theorem flPanic_iff {i : Nat} {r : Rec} (hr : A.recs[i]? = some r) :
    FLPanic v A pix r ↔ Feat.BadStep v.row v.col A pix r := by
  obtain ⟨g, hg, hrect, -⟩ := plain_stream h 0 i hr
  have hgd : A.stream.getD r.prior [] = g := by rw [List.getD_eq_getElem?_getD, hg]; rfl
  unfold FLPanic Feat.BadStep
  refine or_congr Iff.rfl ?_
  rw [hgd]
  by_cases hu : r.useful = 3
  · obtain ⟨g', m0, hm, -, -⟩ := (analyse_met h.numbers h.analysed).2 i r hr (by omega)
    rw [C37_panics_iff g v.row v.col hrect _ hm.cell]
    tauto
  · tauto

/-- **C58** `super_fl_local` panics exactly if the video has, after its first event, a press of the right button off the board, or
a chord on a cell of the last column that no orthogonal neighbour beats, or an event whose squared distance in cells from
the one before (movements apart) does not fit 32 bits; otherwise it returns and comments exactly the first
flags of the runs of flags and approved chords: runs begin with the first flag, or the first one after the end of a run, and end
with a left click, a bad or useless chord or, once they have a second step, an event more than 4 cells away from the last; a
run gets a comment if it had, before its end, a chord being at least its fifth step, and the comment counts the steps up to its
last chord.  A run still going on when the video ends gets none. -/
theorem C58_super_fl {k : Nat} (hF : Annotated dist A k pix F) :
    (F.run dist .superFLLocal = none ↔ ∃ i r, 1 ≤ i ∧ A.recs[i]? = some r ∧ (FLPanic v A pix r ∨ TooFar A pix i)) ∧
    ∀ F', F.run dist .superFLLocal = some F' → ∀ (a : Nat) cs, F.comments[a]? = some cs →
      (∀ n, FLRun A pix a n → F'.comments[a]? = some (cs ++ [.superFL n])) ∧
      ((∀ n, ¬ FLRun A pix a n) → F'.comments[a]? = some cs) := by
  have hI := hF.inv
  have hstep : ∀ i T (hi : 1 ≤ i) (hlt : i < A.recs.length), FLInv A k pix F i T →
      ((FLPanic v A pix A.recs[i] ∨ TooFar A pix i) ∧ flStep T i = none) ∨
      ¬ (FLPanic v A pix A.recs[i] ∨ TooFar A pix i) ∧ ∃ T', flStep T i = some T' ∧ FLInv A k pix F (i + 1) T' := by
    intro i T hi hlt hT
    rw [flPanic_iff h (List.getElem?_eq_getElem hlt)]
    exact flStep_inv hi hlt h.pixPos (fun i r hr => plain_stream h k i hr) hT
  have h0 : FLInv A k pix F 1 (F, ⟨0, 0, .notStart, 0, 0⟩) := by
    have hno : ∀ j, ¬ Over A pix j 1 := by
      rintro j ⟨h1, i', h2, h3⟩
      have := h3.1
      omega
    refine ⟨hI, ⟨.inl rfl, by simp, fun m m1 m2 => by simp only at m1; omega⟩, .inl ⟨rfl, .inl fun l l1 l2 => by omega, ?_⟩⟩
    exact ⟨fun _ _ => rfl, fun j n hj => absurd hj (hno j), fun j hj => absurd hj (hno j),
      fun j hj hji => by have := (runBegins_flag hj).1; omega⟩
  rcases Nat.eq_zero_or_pos A.recs.length with hlen | hlen
  · have hrun : F.run dist .superFLLocal = some F := by
      simp [Feat.run, Feat.superFLLocal, hI.recs, hlen, rng]
    rw [hrun]
    refine ⟨⟨fun hh => (by cases hh), fun ⟨i, r, _, hr, _⟩ => ?_⟩, fun F' hF' a cs hcs => ?_⟩
    · have := (List.getElem?_eq_some_iff.mp hr).1; omega
    · have := (List.getElem?_eq_some_iff.mp hcs).1
      rw [hI.len] at this; omega
  have hrun : F.run dist .superFLLocal =
      ((rng 1 (1 + (A.recs.length - 1))).foldlM (m := Option) flStep (F, ⟨0, 0, .notStart, 0, 0⟩)).map (·.1) := by
    simp only [Feat.run, Feat.superFLLocal, hI.recs, show 1 + (A.recs.length - 1) = A.recs.length by omega]
    cases (rng 1 A.recs.length).foldlM (m := Option) flStep (F, ⟨0, 0, .notStart, 0, 0⟩) <;> rfl
  by_cases hbad : ∃ i r, 1 ≤ i ∧ A.recs[i]? = some r ∧ (FLPanic v A pix r ∨ TooFar A pix i)
  · have hnone : F.run dist .superFLLocal = none := by
      classical
      -- the first such event
      have hex : ∃ i, 1 ≤ i ∧ ∃ r, A.recs[i]? = some r ∧ (FLPanic v A pix r ∨ TooFar A pix i) := by
        obtain ⟨i, r, a, b, c⟩ := hbad; exact ⟨i, a, r, b, c⟩
      obtain ⟨i1, r, hr, hp⟩ := Nat.find_spec hex
      have hmin : ∀ m, m < Nat.find hex → ¬ _ := fun m hm => Nat.find_min hex hm
      set i := Nat.find hex with hidef
      have hlt := (List.getElem?_eq_some_iff.mp hr).1
      obtain ⟨T, t1, t2⟩ := foldlM_rng (f := flStep) 1 (FLInv A k pix F) (i - 1) h0 (fun j T j1 j2 hT => by
        rcases hstep j T j1 (by omega) hT with ⟨b, -⟩ | ⟨-, b⟩
        · exact absurd ⟨j1, _, List.getElem?_eq_getElem (by omega), b⟩ (hmin j (by omega))
        · exact b)
      rw [show 1 + (i - 1) = i by omega] at t1 t2
      have hsplit : rng 1 (1 + (A.recs.length - 1)) = rng 1 i ++ i :: rng (i + 1) A.recs.length := by
        unfold rng
        rw [show 1 + (A.recs.length - 1) - 1 = (i - 1) + (1 + (A.recs.length - (i + 1))) by omega, ← List.range'_append_1,
          ← List.range'_append_1]
        simp [show 1 + (i - 1) = i by omega]
      have hfail : flStep T i = none := by
        rcases hstep i T i1 hlt t2 with ⟨-, b⟩ | ⟨b, -⟩
        · exact b
        · rw [List.getElem?_eq_getElem hlt, Option.some.injEq] at hr
          exact absurd (hr ▸ hp) b
      rw [hrun, hsplit, List.foldlM_append, t1, Option.bind_eq_bind, Option.bind_some, List.foldlM_cons, hfail]
      rfl
    rw [hnone]
    exact ⟨⟨fun _ => hbad, fun _ => rfl⟩, fun F' hF' => by cases hF'⟩
  · obtain ⟨T, t1, t2⟩ := foldlM_rng (f := flStep) 1 (FLInv A k pix F) (A.recs.length - 1) h0 (fun j T j1 j2 hT => by
      rcases hstep j T j1 (by omega) hT with ⟨b, -⟩ | ⟨-, b⟩
      · exact absurd ⟨j, _, j1, List.getElem?_eq_getElem (by omega), b⟩ hbad
      · exact b)
    rw [hrun, t1]
    rw [show 1 + (A.recs.length - 1) = A.recs.length by omega] at t2
    refine ⟨⟨fun hh => (by cases hh), fun hh => absurd hh hbad⟩, fun F' hF' a cs hcs => ?_⟩
    simp only [Option.map_some, Option.some.injEq] at hF'
    subst hF'
    obtain ⟨an, hD⟩ : ∃ an, Done A pix F T.1 A.recs.length an := by
      rcases t2.state with ⟨-, -, hd⟩ | ⟨-, hd⟩
      · exact ⟨_, hd⟩
      · exact ⟨_, hd⟩
    have hin : ∀ i, EndAt A pix a i → i < A.recs.length := by
      rintro i (⟨_, r, _, _, hr, _⟩ | ⟨⟨_, r, _, _, hr, _⟩, _⟩) <;> exact (List.getElem?_eq_some_iff.mp hr).1
    refine ⟨fun n hn => ?_, fun hn => ?_⟩
    · have hover : Over A pix a A.recs.length := by
        obtain ⟨hb, i, e, he, -⟩ := hn
        exact ⟨hb, i, hin i he.2.1, he⟩
      rw [hD.said a n hover hn, hcs]
      rfl
    · by_cases hover : Over A pix a A.recs.length
      · rw [hD.silent a hover hn, hcs]
      · rw [hD.unsaid a hover, hcs]

end

/-! ## comments that never occur -/

/-- **C56** **C57** No comment ever calls a flag hard to judge or a way straight, whatever analyses are run, in any order. -/
theorem C56_never (h : GoodVideo dist v pix evs A) (hd : ∀ p, dist p p = 0) (hd' : ∀ p q, 0 ≤ dist p q)
    (hF : Annotated dist A (mines v).card pix F) :
    ∀ cs ∈ F.comments, Comment.hardMine ∉ cs ∧ Comment.straight ∉ cs := by
  suffices hh : ∀ (i : Nat) cs, F.comments[i]? = some cs → Comment.hardMine ∉ cs ∧ Comment.straight ∉ cs by
    intro cs hcs
    obtain ⟨i, hi⟩ := List.mem_iff_getElem?.mp hcs
    exact hh i cs hi
  induction hF with
  | start =>
    intro i cs hcs
    simp only [Replay.feat, List.getElem?_map, Option.map_eq_some_iff] at hcs
    obtain ⟨-, -, rfl⟩ := hcs
    simp
  | @run F F' f hF hrun ih =>
    intro i cs' hcs'
    have hI := hF.inv
    have hI' := (Annotated.run hF hrun).inv
    have hi : i < A.recs.length := by
      have := (List.getElem?_eq_some_iff.mp hcs').1
      rwa [hI'.len] at this
    have hr := List.getElem?_eq_getElem hi
    have hcs := List.getElem?_eq_getElem (show i < F.comments.length by rw [hI.len]; exact hi)
    have hold := ih i _ hcs
    set cs := F.comments[i]'(by rw [hI.len]; exact hi) with hcsdef
    cases f with
    | highRiskGuess =>
      obtain ⟨F1, f1, f2⟩ := C56_high_risk h hF
      rw [hrun, Option.some.injEq] at f1
      subst f1
      rw [f2 i _ cs hr hcs, Option.some.injEq] at hcs'
      subst hcs'
      split <;> simpa using hold
    | jumpJudge =>
      obtain ⟨F1, f1, f2⟩ := C56_jump_judge h hF
      rw [hrun, Option.some.injEq] at f1
      subst f1
      rw [f2 i _ cs hr hcs, Option.some.injEq] at hcs'
      subst hcs'
      split <;> simpa using hold
    | needlessGuess =>
      obtain ⟨F1, f1, f2⟩ := C56_needless_guess h hF
      rw [hrun, Option.some.injEq] at f1
      subst f1
      rw [f2 i _ cs hr hcs, Option.some.injEq] at hcs'
      subst hcs'
      split <;> simpa using hold
    | mouseTrace =>
      obtain ⟨F1, f1, f2, f3⟩ := (C57_mouse_trace hd hd' hF).2 (by intro he; rw [he] at hi; simp at hi)
      rw [hrun, Option.some.injEq] at f1
      subst f1
      by_cases hc : ∃ m, Consecutive (ClickAt A.recs) i m
      · obtain ⟨m, hm⟩ := hc
        rw [f2 i m cs hm hcs, Option.some.injEq] at hcs'
        subst hcs'
        unfold wayComment
        split
        · simpa using hold
        split
        · simpa using hold
        split
        · simpa using hold
        split <;> simpa using hold
      · rw [f3 i (fun m hm => hc ⟨m, hm⟩), hcs, Option.some.injEq] at hcs'
        rw [← hcs']; exact hold
    | visionTransfer =>
      obtain ⟨F1, f1, f2, f3⟩ := (C57_vision_transfer h hF).2 (by intro he; rw [he] at hi; simp at hi)
      rw [hrun, Option.some.injEq] at f1
      subst f1
      by_cases hc : ∃ m, Consecutive (OpenAt A.recs) i m
      · obtain ⟨m, hm⟩ := hc
        obtain ⟨rm, hrm, -⟩ := hm.2.2.1
        rw [f2 i m _ _ cs hm hr hrm hcs, Option.some.injEq] at hcs'
        subst hcs'
        split <;> simpa using hold
      · rw [f3 i (fun m hm => hc ⟨m, hm⟩), hcs, Option.some.injEq] at hcs'
        rw [← hcs']; exact hold
    | survivePoss =>
      have hne : evs ≠ [] := by
        have : evs.length = A.recs.length := by rw [← (analyse_inv h.numbers h.analysed).raw]; simp
        intro he; rw [he] at this; simp at this; omega
      obtain ⟨F1, fs, f1, -, f2⟩ := (C56_survive h hF).2 hne
      rw [hrun, Option.some.injEq] at f1
      subst f1
      rw [f2, List.getElem?_set] at hcs'
      split at hcs'
      · split at hcs'
        · simp only [Option.some.injEq] at hcs'
          rw [← hcs']; simp
        · cases hcs'
      · rw [hcs, Option.some.injEq] at hcs'
        rw [← hcs']; exact hold
    | superFLLocal =>
      have f2 := (C58_super_fl h.toPlainVideo hF).2 F' hrun i cs hcs
      by_cases hn : ∃ n, FLRun A pix i n
      · obtain ⟨n, hn⟩ := hn
        rw [f2.1 n hn, Option.some.injEq] at hcs'
        subst hcs'
        simpa using hold
      · rw [f2.2 (fun n hh => hn ⟨n, hh⟩), Option.some.injEq] at hcs'
        rw [← hcs']; exact hold
    | unknown =>
      simp only [Feat.run, Option.some.injEq] at hrun
      subst hrun
      rw [hcs, Option.some.injEq] at hcs'
      rw [← hcs']; exact hold

/-! ## examples -/

/-- The hypothesis about the reach of the enumeration holds on every board of at most 55 cells. -/
theorem goodVideo_small (h : PlainVideo dist v pix evs A) (hm : 1 ≤ (mines v).card) (hs : v.row * v.col ≤ 55) :
    GoodVideo dist v pix evs A := by
  refine ⟨h, hm, fun g hg p _ => inReach_small _ ?_ p⟩
  have ha := stream_askable h.numbers h.row h.analysed hg
  obtain ⟨hu, -⟩ := unmark_spec g v.row v.col ha.rect
  have hd := rect_dims hu h.row
  refine le_trans (Finset.card_le_card (t := grid v.row v.col) fun q hq => ?_) ?_
  · rw [mem_coveredSet] at hq
    have := hq.1
    rwa [hd.1, hd.2] at this
  · unfold grid
    simpa using hs

/-- Clicks at cells, 10 pixels wide. -/
def clicksAt (l : List (Ev × Nat × Nat)) : List RawEv := l.map fun (e, x, y) => ⟨0, e, 10 * y + 5, 10 * x + 5⟩

/-- A 4 between four mines, and more. -/
def flBoard : Board := [[-1, -1, -1, 1, 0], [-1, 4, 2, 2, 1], [1, 1, 0, 1, -1], [0, 0, 0, 1, 1]]

theorem flBoard_numbered : Numbered flBoard.view := by unfold Numbered; decide +kernel

/-- A video of a game: the 4 is opened, its mines flagged, one flag more is put on a safe cell if `wrong`, a chord, a left click. -/
def flEvents (wrong : Bool) : List RawEv := clicksAt ([(.lc, 1, 1), (.lr, 1, 1), (.rc, 0, 0), (.rr, 0, 0), (.rc, 0, 1), (.rr, 0, 1), (.rc, 0, 2),
  (.rr, 0, 2)] ++ (if wrong then [(.rc, 1, 3), (.rr, 1, 3)] else []) ++ [(.rc, 1, 0), (.rr, 1, 0), (.lc, 1, 1), (.rc, 1, 1), (.rr, 1, 1),
  (.lr, 1, 1), (.lc, 3, 4), (.lr, 3, 4)])

theorem flVideo (w : Bool) : ∃ A, analyse taxi flBoard.view 4 5 10 (flEvents w) = some A ∧ GoodVideo taxi flBoard.view 10 (flEvents w) A := by
  have hs : (analyse taxi flBoard.view 4 5 10 (flEvents w)).isSome = true := by
    cases w <;> decide +kernel
  obtain ⟨A, hA⟩ := Option.isSome_iff_exists.mp hs
  exact ⟨A, hA, goodVideo_small ⟨flBoard_numbered, by decide +kernel, by decide, hA⟩ (by decide +kernel) (by decide +kernel)⟩

/-- The run of 5 steps is reported at its first flag (event 2). -/
example : ((analyse taxi flBoard.view 4 5 10 (flEvents false)).bind fun A => ((A.feat 5 10).run taxi .superFLLocal).map fun F =>
    F.comments[2]?) = some (some [.superFL 5]) := by decide +kernel

/-- **C58** A flag on a safe cell counts, too: "correct" flags are not checked. -/
theorem C58_wrong_flag_counts : ((analyse taxi flBoard.view 4 5 10 (flEvents true)).bind fun A =>
    ((A.feat 5 10).run taxi .superFLLocal).map fun F => F.comments[2]?) = some (some [.superFL 6]) := by decide +kernel

/-- **C58** Without the click at the end the run is not reported. -/
theorem C58_end_of_video : ((analyse taxi flBoard.view 4 5 10 ((flEvents false).take 14)).bind fun A =>
    ((A.feat 5 10).run taxi .superFLLocal).map fun F => F.comments[2]?) = some (some []) := by decide +kernel

/-- **C58** A press of the right button off the board makes it panic. -/
theorem C58_panics : ((analyse taxi flBoard.view 4 5 10 (clicksAt [(.lc, 1, 1), (.lr, 1, 1), (.rc, 4, 4), (.rr, 4, 4)])).map fun A =>
    ((A.feat 5 10).run taxi .superFLLocal).isSome) = some false := by decide +kernel

/-- **C58** With cells of one pixel a click 60000 pixels off the board makes it panic, too: the square of the distance does not
fit. -/
theorem C58_too_far_panics : ((analyse taxi flBoard.view 4 5 1 [⟨0, .lc, 1, 1⟩, ⟨0, .lr, 1, 1⟩, ⟨0, .lc, 60000, 1⟩]).map fun A =>
    ((A.feat 5 1).run taxi .superFLLocal).isSome) = some false := by decide +kernel

/-- Two cells, one mine, nothing known. -/
def guessBoard : Board := [[-1, 1]]

/-- **C56** A guess that cannot be avoided - the first click, each of the two cells being a mine in one of two layouts - is called
needless. -/
theorem C56_forced_guess : ((analyse taxi guessBoard.view 1 2 10 (clicksAt [(.mv, 0, 1), (.lc, 0, 1), (.lr, 0, 1)])).bind fun A =>
    ((A.feat 1 10).run taxi .needlessGuess).map fun F => F.comments) = some [[], [], [.needless]] := by decide +kernel

/-- **C56** A guess that fails is not commented at all. -/
theorem C56_failed_guess : ((analyse taxi guessBoard.view 1 2 10 (clicksAt [(.mv, 0, 0), (.lc, 0, 0), (.lr, 0, 0)])).bind fun A =>
    (((A.feat 1 10).run taxi .needlessGuess).bind (·.run taxi .highRiskGuess)).map fun F => F.comments) = some [[], [], []] := by decide +kernel

/-- **C56** `survive_poss` deletes the comments of the last event. -/
theorem C56_survive_overwrites : ((analyse taxi guessBoard.view 1 2 10 (clicksAt [(.mv, 0, 1), (.lc, 0, 1), (.lr, 0, 1)])).bind fun A =>
    (((A.feat 1 10).run taxi .needlessGuess).bind (·.run taxi .survivePoss)).map fun F => F.comments) =
      some [[], [], [.luck [] 1]] := by decide +kernel

/-- One safe cell between two mines. -/
def riskBoard : Board := [[-1, 2, -1]]

example : ∃ A, analyse taxi riskBoard.view 1 3 10 (clicksAt [(.mv, 0, 1), (.lc, 0, 1), (.lr, 0, 1)]) = some A ∧
    GoodVideo taxi riskBoard.view 10 (clicksAt [(.mv, 0, 1), (.lc, 0, 1), (.lr, 0, 1)]) A := by
  have hs : (analyse taxi riskBoard.view 1 3 10 (clicksAt [(.mv, 0, 1), (.lc, 0, 1), (.lr, 0, 1)])).isSome = true := by decide +kernel
  obtain ⟨A, hA⟩ := Option.isSome_iff_exists.mp hs
  exact ⟨A, hA, goodVideo_small ⟨by unfold Numbered; decide +kernel, by decide +kernel, by decide, hA⟩ (by decide +kernel)
    (by decide +kernel)⟩

/-- A guess with a risk of 2/3 that succeeds is commented, being right with probability 1/3. -/
example : ((analyse taxi riskBoard.view 1 3 10 (clicksAt [(.mv, 0, 1), (.lc, 0, 1), (.lr, 0, 1)])).bind fun A =>
    ((A.feat 2 10).run taxi .highRiskGuess).map fun F => F.comments) = some [[], [], [.risky (1 / 3)]] := by decide +kernel

/-- A long way between two clicks 10 pixels apart. -/
example : ((analyse taxi gameSample.view 3 4 10 (clicksAt [(.lc, 0, 3), (.lr, 0, 3), (.mv, 2, 0), (.mv, 0, 0), (.mv, 2, 0), (.lc, 0, 2), (.lr, 0, 2)])).bind
    fun A => ((A.feat 2 10).run taxi .mouseTrace).map fun F => F.comments[1]?) = some (some [.veryCurved (some 13)]) := by decide +kernel

end Ms.Properties
