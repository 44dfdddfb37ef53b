import Verif.SpecObr
import Mathlib.Tactic.FinCases
import Mathlib.Data.Fintype.Basic
import Mathlib.Tactic.Linarith

/-! # The shortest walk in a strip of five columns -/

namespace Ms.Properties
open Ms Ms.Spec

/-- the cheapest of the neighbouring places -/
def Reached (w : Fin 5 → Bool) (d : Fin 5 → Nat) (j : Fin 5) (x : Nat) : Prop :=
  (∃ i : Fin 5, j.val ≤ i.val + 1 ∧ i.val ≤ j.val + 1 ∧ x = d i + miss (w i) + (if i.val ≠ j.val then 1 else 0)) ∧
    ∀ i : Fin 5, j.val ≤ i.val + 1 → i.val ≤ j.val + 1 → x ≤ d i + miss (w i) + (if i.val ≠ j.val then 1 else 0)

theorem reached_0 (w : Fin 5 → Bool) (d : Fin 5 → Nat) : Reached w d 0 (min (d 0 + miss (w 0)) (d 1 + miss (w 1) + 1)) := by
  have h0 : d 0 + miss (w 0) + (if ((0 : Fin 5)).val ≠ ((0 : Fin 5)).val then 1 else 0) = d 0 + miss (w 0) := by
    rw [if_neg (by decide), Nat.add_zero]
  have h1 : d 1 + miss (w 1) + (if ((1 : Fin 5)).val ≠ ((0 : Fin 5)).val then 1 else 0) = d 1 + miss (w 1) + 1 := by
    rw [if_pos (by decide)]
  constructor
  · rcases le_total (d 0 + miss (w 0)) (d 1 + miss (w 1) + 1) with h | h
    · exact ⟨0, by decide, by decide, by rw [h0]; exact min_eq_left h⟩
    · exact ⟨1, by decide, by decide, by rw [h1]; exact min_eq_right h⟩
  · intro i i1 i2
    have : i = 0 ∨ i = 1 := by
      simp only [Fin.ext_iff]
      have v : ((0 : Fin 5)).val = 0 := rfl
      rw [v] at i1 i2
      show i.val = 0 ∨ i.val = 1
      omega
    rcases this with rfl | rfl
    · rw [h0]; omega
    · rw [h1]; omega

theorem reached_1 (w : Fin 5 → Bool) (d : Fin 5 → Nat) : Reached w d 1 (min (min (d 1 + miss (w 1)) (d 0 + miss (w 0) + 1)) (d 2 + miss (w 2) + 1)) := by
  have h1 : d 1 + miss (w 1) + (if ((1 : Fin 5)).val ≠ ((1 : Fin 5)).val then 1 else 0) = d 1 + miss (w 1) := by
    rw [if_neg (by decide), Nat.add_zero]
  have h0 : d 0 + miss (w 0) + (if ((0 : Fin 5)).val ≠ ((1 : Fin 5)).val then 1 else 0) = d 0 + miss (w 0) + 1 := by
    rw [if_pos (by decide)]
  have h2 : d 2 + miss (w 2) + (if ((2 : Fin 5)).val ≠ ((1 : Fin 5)).val then 1 else 0) = d 2 + miss (w 2) + 1 := by
    rw [if_pos (by decide)]
  constructor
  · rcases le_total (d 1 + miss (w 1)) (d 0 + miss (w 0) + 1) with h | h
    · rw [min_eq_left h]
      rcases le_total (d 1 + miss (w 1)) (d 2 + miss (w 2) + 1) with h' | h'
      · exact ⟨1, by decide, by decide, by rw [h1]; exact min_eq_left h'⟩
      · exact ⟨2, by decide, by decide, by rw [h2]; exact min_eq_right h'⟩
    · rw [min_eq_right h]
      rcases le_total (d 0 + miss (w 0) + 1) (d 2 + miss (w 2) + 1) with h' | h'
      · exact ⟨0, by decide, by decide, by rw [h0]; exact min_eq_left h'⟩
      · exact ⟨2, by decide, by decide, by rw [h2]; exact min_eq_right h'⟩
  · intro i i1 i2
    have : i = 1 ∨ i = 0 ∨ i = 2 := by
      simp only [Fin.ext_iff]
      have v : ((1 : Fin 5)).val = 1 := rfl
      rw [v] at i1 i2
      show i.val = 1 ∨ i.val = 0 ∨ i.val = 2
      omega
    rcases this with rfl | rfl | rfl
    · rw [h1]; omega
    · rw [h0]; omega
    · rw [h2]; omega

theorem reached_2 (w : Fin 5 → Bool) (d : Fin 5 → Nat) : Reached w d 2 (min (min (d 2 + miss (w 2)) (d 1 + miss (w 1) + 1)) (d 3 + miss (w 3) + 1)) := by
  have h2 : d 2 + miss (w 2) + (if ((2 : Fin 5)).val ≠ ((2 : Fin 5)).val then 1 else 0) = d 2 + miss (w 2) := by
    rw [if_neg (by decide), Nat.add_zero]
  have h1 : d 1 + miss (w 1) + (if ((1 : Fin 5)).val ≠ ((2 : Fin 5)).val then 1 else 0) = d 1 + miss (w 1) + 1 := by
    rw [if_pos (by decide)]
  have h3 : d 3 + miss (w 3) + (if ((3 : Fin 5)).val ≠ ((2 : Fin 5)).val then 1 else 0) = d 3 + miss (w 3) + 1 := by
    rw [if_pos (by decide)]
  constructor
  · rcases le_total (d 2 + miss (w 2)) (d 1 + miss (w 1) + 1) with h | h
    · rw [min_eq_left h]
      rcases le_total (d 2 + miss (w 2)) (d 3 + miss (w 3) + 1) with h' | h'
      · exact ⟨2, by decide, by decide, by rw [h2]; exact min_eq_left h'⟩
      · exact ⟨3, by decide, by decide, by rw [h3]; exact min_eq_right h'⟩
    · rw [min_eq_right h]
      rcases le_total (d 1 + miss (w 1) + 1) (d 3 + miss (w 3) + 1) with h' | h'
      · exact ⟨1, by decide, by decide, by rw [h1]; exact min_eq_left h'⟩
      · exact ⟨3, by decide, by decide, by rw [h3]; exact min_eq_right h'⟩
  · intro i i1 i2
    have : i = 2 ∨ i = 1 ∨ i = 3 := by
      simp only [Fin.ext_iff]
      have v : ((2 : Fin 5)).val = 2 := rfl
      rw [v] at i1 i2
      show i.val = 2 ∨ i.val = 1 ∨ i.val = 3
      omega
    rcases this with rfl | rfl | rfl
    · rw [h2]; omega
    · rw [h1]; omega
    · rw [h3]; omega

theorem reached_3 (w : Fin 5 → Bool) (d : Fin 5 → Nat) : Reached w d 3 (min (min (d 3 + miss (w 3)) (d 2 + miss (w 2) + 1)) (d 4 + miss (w 4) + 1)) := by
  have h3 : d 3 + miss (w 3) + (if ((3 : Fin 5)).val ≠ ((3 : Fin 5)).val then 1 else 0) = d 3 + miss (w 3) := by
    rw [if_neg (by decide), Nat.add_zero]
  have h2 : d 2 + miss (w 2) + (if ((2 : Fin 5)).val ≠ ((3 : Fin 5)).val then 1 else 0) = d 2 + miss (w 2) + 1 := by
    rw [if_pos (by decide)]
  have h4 : d 4 + miss (w 4) + (if ((4 : Fin 5)).val ≠ ((3 : Fin 5)).val then 1 else 0) = d 4 + miss (w 4) + 1 := by
    rw [if_pos (by decide)]
  constructor
  · rcases le_total (d 3 + miss (w 3)) (d 2 + miss (w 2) + 1) with h | h
    · rw [min_eq_left h]
      rcases le_total (d 3 + miss (w 3)) (d 4 + miss (w 4) + 1) with h' | h'
      · exact ⟨3, by decide, by decide, by rw [h3]; exact min_eq_left h'⟩
      · exact ⟨4, by decide, by decide, by rw [h4]; exact min_eq_right h'⟩
    · rw [min_eq_right h]
      rcases le_total (d 2 + miss (w 2) + 1) (d 4 + miss (w 4) + 1) with h' | h'
      · exact ⟨2, by decide, by decide, by rw [h2]; exact min_eq_left h'⟩
      · exact ⟨4, by decide, by decide, by rw [h4]; exact min_eq_right h'⟩
  · intro i i1 i2
    have : i = 3 ∨ i = 2 ∨ i = 4 := by
      simp only [Fin.ext_iff]
      have v : ((3 : Fin 5)).val = 3 := rfl
      rw [v] at i1 i2
      show i.val = 3 ∨ i.val = 2 ∨ i.val = 4
      omega
    rcases this with rfl | rfl | rfl
    · rw [h3]; omega
    · rw [h2]; omega
    · rw [h4]; omega

theorem reached_4 (w : Fin 5 → Bool) (d : Fin 5 → Nat) : Reached w d 4 (min (d 4 + miss (w 4)) (d 3 + miss (w 3) + 1)) := by
  have h4 : d 4 + miss (w 4) + (if ((4 : Fin 5)).val ≠ ((4 : Fin 5)).val then 1 else 0) = d 4 + miss (w 4) := by
    rw [if_neg (by decide), Nat.add_zero]
  have h3 : d 3 + miss (w 3) + (if ((3 : Fin 5)).val ≠ ((4 : Fin 5)).val then 1 else 0) = d 3 + miss (w 3) + 1 := by
    rw [if_pos (by decide)]
  constructor
  · rcases le_total (d 4 + miss (w 4)) (d 3 + miss (w 3) + 1) with h | h
    · exact ⟨4, by decide, by decide, by rw [h4]; exact min_eq_left h⟩
    · exact ⟨3, by decide, by decide, by rw [h3]; exact min_eq_right h⟩
  · intro i i1 i2
    have : i = 4 ∨ i = 3 := by
      simp only [Fin.ext_iff]
      have v : ((4 : Fin 5)).val = 4 := rfl
      rw [v] at i1 i2
      show i.val = 4 ∨ i.val = 3
      omega
    rcases this with rfl | rfl
    · rw [h4]; omega
    · rw [h3]; omega

/-- one step: the cheapest way to come from a neighbouring place -/
theorem stripStep_spec (w : Fin 5 → Bool) (d : Fin 5 → Nat) (j : Fin 5) : Reached w d j (stripStep w d j) := by
  fin_cases j
  · exact reached_0 w d
  · exact reached_1 w d
  · exact reached_2 w d
  · exact reached_3 w d
  · exact reached_4 w d

/-- the cost of a walk: distance at the start, misses and sidesteps -/
def walkCost (edge : Nat → Nat → Bool) (lo a k m : Nat) (q : Nat → Nat) : Nat :=
  apart (q 0) k + (List.range m).countP (fun t => !edge (lo + 1 + t) (a + q t)) + walkTurns m q

theorem walkCost_succ (edge : Nat → Nat → Bool) (lo a k m : Nat) (q : Nat → Nat) :
    walkCost edge lo a k (m + 1) q =
      walkCost edge lo a k m q + miss (edge (lo + 1 + m) (a + q m)) + (if q m ≠ q (m + 1) then 1 else 0) := by
  unfold walkCost walkTurns
  rw [List.range_succ, List.countP_append, List.filter_append, List.length_append]
  have h1 : List.countP (fun t => !edge (lo + 1 + t) (a + q t)) [m] = miss (edge (lo + 1 + m) (a + q m)) := by
    unfold miss
    cases h : edge (lo + 1 + m) (a + q m) <;> simp [h]
  have h2 : (List.filter (fun t => decide (q t ≠ q (t + 1))) [m]).length = if q m ≠ q (m + 1) then 1 else 0 := by
    by_cases h : q m = q (m + 1) <;> simp [h]
  rw [h1, h2]
  omega

theorem walkCost_congr {edge : Nat → Nat → Bool} {lo a k m : Nat} {p q : Nat → Nat} (h : ∀ t, t ≤ m → p t = q t) :
    walkCost edge lo a k m p = walkCost edge lo a k m q := by
  induction m with
  | zero => simp [walkCost, walkTurns, h 0 le_rfl]
  | succ m ih => rw [walkCost_succ, walkCost_succ, ih (fun t ht => h t (by omega)), h m (by omega), h (m + 1) le_rfl]

/-- `d` holds, for every place, the cost of a cheapest walk of `m` steps that ends there. -/
def Cheapest (edge : Nat → Nat → Bool) (lo a k m : Nat) (d : Fin 5 → Nat) : Prop :=
  ∀ j : Fin 5, (∃ q, Walk m q ∧ q m = j.val ∧ walkCost edge lo a k m q = d j) ∧
    ∀ q, Walk m q → q m = j.val → d j ≤ walkCost edge lo a k m q

theorem cheapest_step {edge : Nat → Nat → Bool} {lo a k m : Nat} {d : Fin 5 → Nat} (h : Cheapest edge lo a k m d)
    {w : Fin 5 → Bool} (hw : ∀ j : Fin 5, w j = edge (lo + 1 + m) (a + j.val)) :
    Cheapest edge lo a k (m + 1) (stripStep w d) := by
  intro j
  obtain ⟨⟨i, i1, i2, i3⟩, hmin⟩ := stripStep_spec w d j
  constructor
  · obtain ⟨⟨q, q1, q2, q3⟩, -⟩ := h i
    refine ⟨fun t => if t ≤ m then q t else j.val, ⟨?_, ?_⟩, by simp, ?_⟩
    · intro t ht
      simp only
      split
      · exact q1.1 t (by omega)
      · omega
    · intro t ht
      simp only
      have ht' : t ≤ m := by omega
      rw [if_pos ht']
      by_cases e : t = m
      · subst e
        rw [if_neg (by omega), q2]
        exact ⟨i1, i2⟩
      · have ht2 : t + 1 ≤ m := by omega
        rw [if_pos ht2]
        exact q1.2 t (by omega)
    · rw [walkCost_succ, walkCost_congr (q := q) (fun t ht => by simp [ht]), q3, i3]
      have a1 : (if m ≤ m then q m else j.val) = i.val := by rw [if_pos le_rfl, q2]
      have a2 : (if m + 1 ≤ m then q (m + 1) else j.val) = j.val := if_neg (by omega)
      simp only [a1, a2, hw i]
  · intro q hq hj
    have hm := hq.1 m (by omega)
    have hs := hq.2 m (by omega)
    have h1 := (h ⟨q m, by omega⟩).2 q ⟨fun t ht => hq.1 t (by omega), fun t ht => hq.2 t (by omega)⟩ rfl
    have h2 := hmin ⟨q m, by omega⟩ (by rw [← hj]; exact hs.1) (by rw [← hj]; exact hs.2)
    rw [walkCost_succ]
    rw [hw ⟨q m, by omega⟩] at h2
    simp only at h2
    rw [← hj] at h2
    omega

theorem strip_cheapest {edge : Nat → Nat → Bool} {hit : Nat → Nat → Option Bool} {lo hi a k : Nat} {d : Fin 5 → Nat}
    (hd : ∀ j : Fin 5, d j = apart j.val k) (hhit : ∀ i, lo < i → i ≤ hi → ∀ j, j < 5 → hit i (a + j) = some (edge i (a + j))) :
    ∃ e, strip hit a d lo hi = some e ∧ Cheapest edge lo a k (hi - lo) e := by
  have gen : ∀ m, lo + m ≤ max lo hi → ∃ e, strip hit a d lo (lo + m) = some e ∧ Cheapest edge lo a k m e := by
    intro m
    induction m with
    | zero =>
      intro _
      refine ⟨d, by simp [strip, rng], fun j => ⟨⟨fun _ => j.val, ⟨fun _ _ => Nat.le_of_lt_succ j.isLt, fun _ h => by omega⟩, rfl, ?_⟩, ?_⟩⟩
      · simp [walkCost, walkTurns, hd]
      · intro q _ hj
        simp [walkCost, walkTurns, hd, hj]
    | succ m ih =>
      intro hm
      obtain ⟨e, e1, e2⟩ := ih (by omega)
      have hr : rng (lo + 1) (lo + (m + 1) + 1) = rng (lo + 1) (lo + m + 1) ++ [lo + 1 + m] := by
        unfold rng
        rw [show lo + (m + 1) + 1 - (lo + 1) = (lo + m + 1 - (lo + 1)) + 1 by omega, List.range'_concat]
        congr 2
        omega
      have h0 := fun j (hj : j < 5) => hhit (lo + 1 + m) (by omega) (by omega) j hj
      refine ⟨stripStep (fun j => edge (lo + 1 + m) (a + j.val)) e, ?_, cheapest_step e2 fun j => rfl⟩
      unfold strip at e1 ⊢
      rw [hr, List.foldlM_append, e1]
      have ev : (![edge (lo + 1 + m) a, edge (lo + 1 + m) (a + 1), edge (lo + 1 + m) (a + 2), edge (lo + 1 + m) (a + 3),
          edge (lo + 1 + m) (a + 4)] : Fin 5 → Bool) = fun j => edge (lo + 1 + m) (a + j.val) := by
        funext j
        fin_cases j <;> rfl
      have z : hit (lo + 1 + m) a = some (edge (lo + 1 + m) a) := h0 0 (by omega)
      simp only [Option.bind_eq_bind, Option.bind_some, List.foldlM_cons, List.foldlM_nil, z, h0 1 (by omega),
        h0 2 (by omega), h0 3 (by omega), h0 4 (by omega), Option.pure_def, ev]
  by_cases h : lo ≤ hi
  · have := gen (hi - lo) (by omega)
    rwa [show lo + (hi - lo) = hi by omega] at this
  · have := gen 0 (by omega)
    rw [show hi - lo = 0 by omega]
    obtain ⟨e, e1, e2⟩ := this
    refine ⟨e, ?_, e2⟩
    rw [← e1]
    unfold strip rng
    rw [show hi + 1 - (lo + 1) = 0 by omega, show lo + 0 + 1 - (lo + 1) = 0 by omega]

theorem walkHits_misses (edge : Nat → Nat → Bool) (lo a m : Nat) (q : Nat → Nat) :
    walkHits edge lo a m q + (List.range m).countP (fun t => !edge (lo + 1 + t) (a + q t)) = m := by
  unfold walkHits
  rw [← List.countP_eq_length_filter]
  have := List.length_eq_countP_add_countP (fun t => edge (lo + 1 + t) (a + q t)) (l := List.range m)
  rw [List.length_range] at this
  have e : (fun t => decide ¬(edge (lo + 1 + t) (a + q t) = true)) = fun t => !edge (lo + 1 + t) (a + q t) := by
    funext t
    cases edge (lo + 1 + t) (a + q t) <;> rfl
  rw [e] at this
  omega

theorem score_best {edge : Nat → Nat → Bool} {hit : Nat → Nat → Option Bool} {lo hi a : Nat} {k : Fin 5} {d : Fin 5 → Nat}
    (h : lo ≤ hi) (hd : ∀ j : Fin 5, d j = apart j.val k.val)
    (hhit : ∀ i, lo < i → i ≤ hi → ∀ j, j < 5 → hit i (a + j) = some (edge i (a + j))) :
    ∃ s, score hit lo hi a k d = some s ∧ BestWalk edge lo hi a k.val s := by
  obtain ⟨e, e1, e2⟩ := strip_cheapest hd hhit
  obtain ⟨⟨q, q1, q2, q3⟩, hmin⟩ := e2 k
  -- the straight walk
  have hs := hmin (fun _ => k.val) ⟨fun _ _ => Nat.le_of_lt_succ k.isLt, fun _ _ => ⟨Nat.le_succ _, Nat.le_succ _⟩⟩ rfl
  have hm : e k ≤ hi - lo := by
    refine le_trans hs ?_
    have := walkHits_misses edge lo a (hi - lo) (fun _ => k.val)
    simp [walkCost, walkTurns, apart]
    omega
  refine ⟨hi - lo - e k, ?_, ⟨q, q1, q2, ?_⟩, ?_⟩
  · unfold score
    rw [if_neg (by omega)]
    simp only [Option.bind_eq_bind, pure_bind, e1, Option.bind_some]
    rw [if_neg (by omega)]
    rfl
  · have := walkHits_misses edge lo a (hi - lo) q
    unfold walkCost at q3
    omega
  · intro p hp hk
    have h1 := hmin p hp hk
    have := walkHits_misses edge lo a (hi - lo) p
    unfold walkCost at h1
    omega

end Ms.Properties
