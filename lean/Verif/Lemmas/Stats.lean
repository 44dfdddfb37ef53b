import Verif.SpecStats
import Verif.Lemmas.ReplayAny
import Verif.Lemmas.Player
import Verif.Lemmas.GameEff

/-! # Lemmas about the statistics -/

namespace Ms
open Spec MSB Properties

variable {dist : Pos → Pos → ℚ}

/-- An event of level 0 or 1 solves nothing. -/
theorem MSB.Eff.solvedSame {s : MSB} {e : Ev} {p : Pos} {s' : MSB} {a : Nat} (h : s.GInv) (he : Eff s e p s' (some a))
    (ha : a < 2) : s'.bbbvSolved = s.bbbvSolved := by
  have hR : ∀ {t t' : MSB} {r : Option Nat}, RightEff t p t' r → t'.bbbvSolved = t.bbbvSolved := by
    intro t t' r hr
    cases hr <;> rfl
  generalize hr : some a = r at he
  cases he with
  | idle => rfl
  | start => rfl
  | back => rfl
  | backClear => rfl
  | unflagLast => rfl
  | preFlag m k _ _ h' _ _ _ _ hc =>
    have := right_eff (st := .preFlaging) h (by rcases h' with h' | h' <;> simp [h']) (by simp) hc
    have h3 := hR this.2.2
    exact h3
  | preUnflag m k _ _ h' _ _ _ _ _ hc =>
    have := right_eff (st := s.state) h (by simp [h']) (by simp [h']) hc
    have h3 := hR this.2.2
    exact h3
  | right m _ _ h' _ _ hc =>
    have := right_eff (k := s.preFlagNum) (st := s.state) h (by simp [h']) (by simp [h']) hc
    have h3 := hR this.2.2
    exact h3
  | left m _ _ h' _ _ hc =>
    obtain ⟨-, -, e2⟩ := left_eff h h' hc
    cases e2 with
    | none => rfl
    | mine => rfl
    | safe =>
      simp only [Option.some.injEq] at hr
      omega
  | chord m mh dec _ _ h' _ _ hc =>
    obtain ⟨-, -, e2⟩ := chord_eff h hc
    cases e2 with
    | none => rfl
    | opens =>
      simp only [Option.some.injEq] at hr
      omega
  | miss => rfl

/-- The first event is of level 0 or 1. -/
theorem MSB.Eff.first {s : MSB} {e : Ev} {p : Pos} {s' : MSB} {a : Nat} (h : s.GInv) (hst : s.state = .ready)
    (he : Eff s e p s' (some a)) : a < 2 := by
  generalize hr : some a = r at he
  cases he with
  | idle m mh _ h0 =>
    rcases h0 with rfl | rfl
    · cases hr
    · simp only [Option.some.injEq] at hr; omega
  | start => simp only [Option.some.injEq] at hr; omega
  | back => simp only [Option.some.injEq] at hr; omega
  | backClear => simp only [Option.some.injEq] at hr; omega
  | unflagLast => simp only [Option.some.injEq] at hr; omega
  | preFlag m k _ _ h' _ _ _ _ hc =>
    have := right_eff (st := .preFlaging) h (by simp [hst]) (by simp) hc
    obtain ⟨-, -, e2⟩ := this
    cases e2 <;> simp only [Option.some.injEq] at hr <;> omega
  | preUnflag m k _ _ h' => rw [hst] at h'; cases h'
  | right m _ _ h' => rw [hst] at h'; cases h'
  | left m _ _ h' => rw [hst] at h'; rcases h' with h' | h' <;> simp at h'
  | chord m mh dec _ _ h' => rw [hst] at h'; rcases h' with h' | h' <;> cases h'
  | miss m h' => rw [hst] at h'; rcases h' with h' | h' <;> cases h'

theorem play_reach {pix : Nat} {v : View} (hv : Numbered v) : ∀ {evs : List RawEv} {m : MSB}, play pix v evs = some m → Reach m := by
  intro evs
  induction evs using List.reverseRecOn with
  | nil =>
    intro m hm
    simp only [play, List.foldlM_nil, Option.pure_def, Option.some.injEq] at hm
    rw [← hm]
    exact .new hv
  | append_singleton evs e ih =>
    intro m hm
    rw [play_snoc, Option.bind_eq_some_iff] at hm
    obtain ⟨m0, h0, hm⟩ := hm
    split at hm
    · rename_i m' a hs
      rw [Option.some.injEq] at hm
      subst hm
      exact .step (ih h0) hs
    · cases hm

/-- Something has been solved only after an event that opened a cell, and not by the first event. -/
theorem solved_opened {v : View} {h w pix : Nat} (hv : Numbered v) {evs : List RawEv} {A : Replay}
    (hA : analyse dist v h w pix evs = some A) : ∀ i r, A.recs[i]? = some r → 0 < r.bbbvSolved →
      0 < i ∧ ∃ j q, j ≤ i ∧ A.recs[j]? = some q ∧ 2 ≤ q.useful := by
  have J := analyse_inv hv hA
  intro i
  induction i with
  | zero =>
    intro r hr h0
    exfalso
    obtain ⟨m0, m, e1, e2, -, -, -, -, -, -, e9, -⟩ := J.events _ _ hr
    simp only [play, List.take_zero, List.foldlM_nil, Option.pure_def, Option.some.injEq] at e1
    have hI : m0.GInv := by rw [← e1]; exact (Reach.new hv).inv
    have hst : m0.state = .ready := by rw [← e1]; rfl
    have he := step_eff e2
    have := he.solvedSame hI (he.first hI hst)
    rw [e9, this, ← e1] at h0
    exact absurd h0 (by simp [MSB.new])
  | succ i ih =>
    intro r hr h0
    refine ⟨by omega, ?_⟩
    by_cases hu : 2 ≤ r.useful
    · exact ⟨i + 1, r, le_refl _, hr, hu⟩
    · obtain ⟨m0, m, e1, e2, -, -, -, -, -, -, e9, -⟩ := J.events _ _ hr
      have hlt : i < A.recs.length := by
        have := (List.getElem?_eq_some_iff.mp hr).1
        omega
      have hq : A.recs[i]? = some A.recs[i] := List.getElem?_eq_getElem hlt
      obtain ⟨n0, n, f1, f2, -, -, -, -, -, -, f9, -⟩ := J.events _ _ hq
      have hev : evs[i]? = some (Rec.raw A.recs[i]) := by rw [← J.raw, List.getElem?_map, hq]; rfl
      have hn : play pix v (evs.take (i + 1)) = some n := by
        rw [List.take_add_one, hev]
        show play pix v (_ ++ [_]) = _
        rw [play_snoc, f1]
        show (match MSB.step n0 A.recs[i].ev (A.recs[i].y / pix, A.recs[i].x / pix) with
          | some (m', some _) => some m' | _ => none) = some n
        rw [f2]
      rw [hn, Option.some.injEq] at e1
      subst e1
      have := (step_eff e2).solvedSame (play_reach hv hn).inv (by omega)
      rw [e9, this, ← f9] at h0
      obtain ⟨-, j, q, hj, hq2, hu2⟩ := ih _ hq h0
      exact ⟨j, q, by omega, hq2, hu2⟩

theorem seekBack_le {rs : List Rec} {t : ℚ} : ∀ (i k : Nat), Player.seekBack rs t i = some k →
    k = 0 ∨ ∃ r, rs[k]? = some r ∧ (r.time : ℚ) ≤ t
  | 0, k, h => by
    simp only [Player.seekBack, Option.some.injEq] at h
    exact .inl h.symm
  | i + 1, k, h => by
    unfold Player.seekBack at h
    cases hr : rs[i]? with
    | none => rw [hr] at h; cases h
    | some r =>
      rw [hr] at h
      simp only at h
      split at h
      · exact seekBack_le i k h
      · rename_i hle
        rw [Option.some.injEq] at h
        subst h
        exact .inr ⟨r, hr, not_lt.mp hle⟩

end Ms
