import Verif.Model.Player
import Verif.SpecVideo

/-! # Seeking in a video -/

namespace Ms
open Spec

/-- the times do not decrease -/
def SortedRecs (rs : List Rec) : Prop := rs.Pairwise fun a b => a.time ≤ b.time

/-- `k` is the event to show at time `t`: the last one not after `t`, or the first one if all are after `t`. -/
structure EventAt (rs : List Rec) (t : ℚ) (k : Nat) : Prop where
  lt : k < rs.length
  before : k = 0 ∨ ∀ i r, i ≤ k → rs[i]? = some r → (r.time : ℚ) ≤ t
  after : ∀ i r, k < i → rs[i]? = some r → t < (r.time : ℚ)

variable {rs : List Rec} {t : ℚ}

theorem SortedRecs.le (h : SortedRecs rs) {i j : Nat} {a b : Rec} (hij : i ≤ j) (ha : rs[i]? = some a)
    (hb : rs[j]? = some b) : (a.time : ℚ) ≤ b.time := by
  rcases Nat.lt_or_eq_of_le hij with hlt | rfl
  · obtain ⟨hi, rfl⟩ := List.getElem?_eq_some_iff.mp ha
    obtain ⟨hj, rfl⟩ := List.getElem?_eq_some_iff.mp hb
    exact_mod_cast List.pairwise_iff_getElem.mp h i j hi hj hlt
  · rw [ha, Option.some.injEq] at hb
    rw [hb]

theorem EventAt.unique {k k' : Nat} (h : EventAt rs t k) (h' : EventAt rs t k') : k = k' := by
  have key : ∀ {a b : Nat}, EventAt rs t a → EventAt rs t b → a ≤ b := by
    intro a b ha hb
    by_contra hlt
    have hlt : b < a := by omega
    obtain ⟨r, hr⟩ : ∃ r, rs[a]? = some r := ⟨_, List.getElem?_eq_getElem ha.lt⟩
    have h1 := hb.after a r hlt hr
    rcases ha.before with h2 | h2
    · omega
    · have := h2 a r (le_refl _) hr
      linarith
  exact le_antisymm (key h h') (key h' h)

theorem seekFwd_total : ∀ (n i : Nat), i < rs.length → rs.length - i < n →
    ∃ k, Player.seekFwd rs t n i = some k ∧ i ≤ k ∧ k < rs.length
  | 0, i, _, hn => by omega
  | n + 1, i, hi, hn => by
    unfold Player.seekFwd
    by_cases h1 : i + 1 ≥ rs.length
    · rw [if_pos h1]; exact ⟨i, rfl, le_refl _, hi⟩
    · rw [if_neg h1, List.getElem?_eq_getElem (by omega)]
      simp only
      split
      · obtain ⟨k, k1, k2, k3⟩ := seekFwd_total n (i + 1) (by omega) (by omega)
        exact ⟨k, k1, by omega, k3⟩
      · exact ⟨i, rfl, le_refl _, hi⟩

theorem seekFwd_spec (hs : SortedRecs rs) : ∀ (n i k : Nat), i < rs.length →
    (∀ j r, j ≤ i → rs[j]? = some r → (r.time : ℚ) ≤ t) → Player.seekFwd rs t n i = some k → EventAt rs t k
  | 0, i, k, _, _, h => by simp [Player.seekFwd] at h
  | n + 1, i, k, hi, hb, h => by
    unfold Player.seekFwd at h
    by_cases h1 : i + 1 ≥ rs.length
    · rw [if_pos h1, Option.some.injEq] at h
      subst h
      refine ⟨hi, .inr hb, fun j r hj hr => ?_⟩
      obtain ⟨hj', -⟩ := List.getElem?_eq_some_iff.mp hr
      omega
    · rw [if_neg h1] at h
      have hlt : i + 1 < rs.length := by omega
      rw [List.getElem?_eq_getElem hlt] at h
      simp only at h
      split at h
      · rename_i hle
        refine seekFwd_spec hs n (i + 1) k hlt (fun j r hj hr => ?_) h
        have := hs.le hj hr (List.getElem?_eq_getElem hlt)
        linarith
      · rename_i hgt
        rw [Option.some.injEq] at h
        subst h
        refine ⟨hi, .inr hb, fun j r hj hr => ?_⟩
        have := hs.le (show i + 1 ≤ j by omega) (List.getElem?_eq_getElem hlt) hr
        push Not at hgt
        linarith

theorem seekBack_total : ∀ i : Nat, i < rs.length → ∃ k, Player.seekBack rs t i = some k ∧ k ≤ i
  | 0, _ => ⟨0, by simp [Player.seekBack], le_refl _⟩
  | i + 1, hi => by
    unfold Player.seekBack
    rw [List.getElem?_eq_getElem (by omega)]
    simp only
    split
    · obtain ⟨k, k1, k2⟩ := seekBack_total i (by omega)
      exact ⟨k, k1, by omega⟩
    · exact ⟨i, rfl, by omega⟩

theorem seekBack_spec (hs : SortedRecs rs) : ∀ (i k : Nat), i < rs.length →
    (∀ j r, i ≤ j → rs[j]? = some r → t < (r.time : ℚ)) → Player.seekBack rs t i = some k → EventAt rs t k
  | 0, k, hi, ha, h => by
    simp only [Player.seekBack, Option.some.injEq] at h
    subst h
    exact ⟨hi, .inl rfl, fun j r hj hr => ha j r (by omega) hr⟩
  | i + 1, k, hi, ha, h => by
    unfold Player.seekBack at h
    have hlt : i < rs.length := by omega
    rw [List.getElem?_eq_getElem hlt] at h
    simp only at h
    split at h
    · rename_i hgt
      refine seekBack_spec hs i k hlt (fun j r hj hr => ?_) h
      have := hs.le hj (List.getElem?_eq_getElem hlt) hr
      linarith
    · rename_i hle
      rw [Option.some.injEq] at h
      subst h
      push Not at hle
      refine ⟨hlt, .inr fun j r hj hr => ?_, fun j r hj hr => ha j r (by omega) hr⟩
      have := hs.le hj hr (List.getElem?_eq_getElem hlt)
      linarith

/-- What `set_current_time` does, in one equation. -/
theorem setTime_eq {P : Player} (hd : P.state = .display) {r l : Rec} (hr : P.recs[P.cur]? = some r)
    (hl : P.recs.getLast? = some l) (time : ℚ) :
    P.setTime time = (if time + P.delta > (r.time : ℚ) then Player.seekFwd P.recs (time + P.delta) (P.recs.length + 1) P.cur
      else Player.seekBack P.recs (time + P.delta) P.cur).map fun k =>
        { P with curTime := min (max time (-P.delta)) (l.time - P.delta), cur := k } := by
  have h1 : ∀ a b : ℚ, (if a < b then b else a) = max a b := by
    intro a b
    split
    · rw [max_eq_right (by linarith)]
    · rw [max_eq_left (by linarith)]
  have h2 : ∀ a b : ℚ, (if a > b then b else a) = min a b := by
    intro a b
    split
    · rw [min_eq_right (by linarith)]
    · rw [min_eq_left (by linarith)]
  unfold Player.setTime
  simp only [Player.startTime, Player.endTime, hd, ne_eq, not_true, if_false, hl, hr, Option.map_some,
    Option.bind_eq_bind, Option.bind_some, Option.pure_def, h1, h2]
  split <;> cases Player.seekFwd P.recs (time + P.delta) (P.recs.length + 1) P.cur <;>
    cases Player.seekBack P.recs (time + P.delta) P.cur <;> rfl

theorem possSearch_spec : ∀ (id : Nat), id < rs.length →
    ((∃ i r, 1 ≤ i ∧ i ≤ id ∧ rs[i]? = some r ∧ 2 ≤ r.useful) → Player.possSearch rs id = some true) ∧
    ((∀ i r, 1 ≤ i → i ≤ id → rs[i]? = some r → r.useful < 2) → 1 ≤ id → Player.possSearch rs id = some false)
  | 0, _ => ⟨fun ⟨i, _, h1, h2, _⟩ => by omega, fun _ h => by omega⟩
  | id + 1, h => by
    obtain ⟨ih1, ih2⟩ := possSearch_spec id (by omega)
    unfold Player.possSearch
    rw [List.getElem?_eq_getElem h]
    simp only
    constructor
    · rintro ⟨i, r, h1, h2, h3, h4⟩
      split
      · rename_i hu
        have hi : i ≠ id + 1 := by
          rintro rfl
          rw [List.getElem?_eq_getElem h, Option.some.injEq] at h3
          rw [h3] at hu
          omega
        rw [if_neg (by omega)]
        exact ih1 ⟨i, r, h1, by omega, h3, h4⟩
      · rfl
    · intro hall _
      rw [if_pos (hall (id + 1) _ (by omega) (le_refl _) (List.getElem?_eq_getElem h))]
      by_cases h0 : id = 0
      · rw [if_pos h0]
      · rw [if_neg h0]
        exact ih2 (fun i r h1 h2 h3 => hall i r h1 (by omega) h3) (by omega)

end Ms
