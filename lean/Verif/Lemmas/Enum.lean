import Verif.Model.Enum
import Verif.Lemmas.Direct
import Verif.Lemmas.BigNumber
import Mathlib.Data.Nat.Choose.Basic

namespace Ms
open Spec

/-! ## weighted sums along one equation -/

/-- The sum of the entries of `v` at the positions where the coefficient is at least 1. -/
def dotL : List Int → List Nat → Nat
  | c :: a, u :: v => (if c ≥ 1 then u else 0) + dotL a v
  | _, _ => 0

@[simp] theorem dotL_nil (a : List Int) : dotL a [] = 0 := by cases a <;> rfl
@[simp] theorem dotL_nil' (v : List Nat) : dotL [] v = 0 := by cases v <;> rfl
@[simp] theorem dotL_cons (c : Int) (a : List Int) (u : Nat) (v : List Nat) :
    dotL (c :: a) (u :: v) = (if c ≥ 1 then u else 0) + dotL a v := rfl

/-- `dotL` of the coefficients of equation `e` from column `i` on. -/
def dotFrom (q : Squeezed) (e i : Nat) (v : List Nat) : Nat := dotL ((q.rows.getD e ([], 0)).1.drop i) v

theorem dotFrom_cons (q : Squeezed) (e i : Nat) (u : Nat) (v : List Nat) (hi : i < (q.rows.getD e ([], 0)).1.length) :
    dotFrom q e i (u :: v) = (if q.hit e i = true then u else 0) + dotFrom q e (i + 1) v := by
  unfold dotFrom Squeezed.hit
  rw [List.drop_eq_getElem_cons hi, dotL_cons]
  have : (q.rows.getD e ([], 0)).1.getD i 0 = (q.rows.getD e ([], 0)).1[i] := by
    rw [List.getD_eq_getElem?_getD (l := (q.rows.getD e ([], 0)).1), List.getElem?_eq_getElem hi]; rfl
  rw [this]; simp only [decide_eq_true_eq]

/-- The sizes of the groups from `i` on. -/
def lensFrom (q : Squeezed) (i r : Nat) : List Nat := (List.range' i r).map q.len

/-- `v` is bounded by the group sizes from `i` on. -/
def LeLens (q : Squeezed) : Nat → List Nat → Prop
  | _, [] => True
  | i, u :: v => u ≤ q.len i ∧ LeLens q (i + 1) v

theorem dotL_le : ∀ (a : List Int) (v w : List Nat), List.Forall₂ (· ≤ ·) v w → dotL a v ≤ dotL a w := by
  intro a
  induction a with
  | nil => intro v w _; simp
  | cons c a ih =>
    intro v w h
    cases h with
    | nil => simp
    | cons h1 h2 =>
      have := ih _ _ h2
      rw [dotL_cons, dotL_cons]
      split <;> omega

theorem LeLens.forall₂ {q : Squeezed} : ∀ {i : Nat} {v : List Nat}, LeLens q i v →
    List.Forall₂ (· ≤ ·) v (lensFrom q i v.length) := by
  intro i v
  induction v generalizing i with
  | nil => intro _; exact .nil
  | cons u v ih =>
    intro h
    simp only [lensFrom, List.length_cons, List.range'_succ, List.map_cons]
    exact .cons h.1 (ih h.2)

theorem LeLens.dot_le {q : Squeezed} {i : Nat} {v : List Nat} (h : LeLens q i v) (e : Nat) :
    dotFrom q e i v ≤ dotFrom q e i (lensFrom q i v.length) := dotL_le _ _ _ h.forall₂

/-! ## well-formed squeezed systems -/

structure SqOK (q : Squeezed) (n : Nat) : Prop where
  rows : ∀ r ∈ q.rows, r.1.length = n
  ne : q.rows ≠ []
  x : q.x.length = n
  groups : q.groups.length = n
  pos : ∀ j, j < n → 1 ≤ q.len j
  le : ∀ j, j < n → q.len j ≤ 8
  hit : ∀ e, e < q.rows.length → ∃ j, j < n ∧ q.hit e j = true

theorem SqOK.cellsNum {q : Squeezed} {n : Nat} (h : SqOK q n) : q.cellsNum = n := by
  unfold Squeezed.cellsNum
  cases hr : q.rows with
  | nil => exact absurd hr h.ne
  | cons r rs => exact h.rows r (by simp [hr])

theorem SqOK.row_len {q : Squeezed} {n : Nat} (h : SqOK q n) {e : Nat} (he : e < q.rows.length) :
    (q.rows.getD e ([], 0)).1.length = n := h.rows _ (getD_mem_of_lt _ he)

theorem mem_eqsOf {q : Squeezed} {j e : Nat} : e ∈ q.eqsOf j ↔ e < q.rows.length ∧ q.hit e j = true := by
  unfold Squeezed.eqsOf; rw [List.mem_filter, List.mem_range]

/-! ## the bounds -/

theorem foldl_sub_le {idx b} (f : Nat → Nat) : ∀ (L : List Nat) , (∀ j ∈ L, j ≤ idx) →
    L.foldl (fun (l : Int) j => if j > idx then l - (f j : Nat) else l) b = b := by
  intro L
  induction L with
  | nil => intro _; rfl
  | cons j L ih =>
    intro h
    have := h j (by simp)
    rw [List.foldl_cons, if_neg (by omega)]
    exact ih (fun k hk => h k (by simp [hk]))

theorem foldl_sub_gt (q : Squeezed) (e idx : Nat) : ∀ (r i : Nat) (b : Int), idx < i →
    i + r = (q.rows.getD e ([], 0)).1.length →
    ((List.range' i r).filter fun j => q.hit e j).foldl (fun (l : Int) j => if j > idx then l - (q.len j : Nat) else l) b =
      b - (dotFrom q e i (lensFrom q i r) : Nat) := by
  intro r
  induction r with
  | zero => intro i b _ _; simp [lensFrom, dotFrom]
  | succ r ih =>
    intro i b hi hr
    have hl : lensFrom q i (r + 1) = q.len i :: lensFrom q (i + 1) r := by
      simp [lensFrom, List.range'_succ]
    rw [hl, dotFrom_cons q e i _ _ (by omega), List.range'_succ, List.filter_cons]
    by_cases hh : q.hit e i = true
    · rw [if_pos hh, if_pos hh, List.foldl_cons, if_pos hi, ih (i + 1) _ (by omega) (by omega)]
      push_cast; omega
    · rw [if_neg hh, if_neg hh, ih (i + 1) _ (by omega) (by omega)]
      push_cast; omega

theorem lowerFold {q : Squeezed} {n : Nat} (h : SqOK q n) {e idx : Nat} (he : e < q.rows.length) (hi : idx < n) (b : Int) :
    (q.cellsOf e).foldl (fun (l : Int) j => if j > idx then l - (q.len j : Nat) else l) b =
      b - (dotFrom q e (idx + 1) (lensFrom q (idx + 1) (n - (idx + 1))) : Nat) := by
  unfold Squeezed.cellsOf
  have hsplit : List.range n = List.range' 0 (idx + 1) ++ List.range' (idx + 1) (n - (idx + 1)) := by
    have := List.range'_append_1 (s := 0) (m := idx + 1) (n := n - (idx + 1))
    rw [Nat.zero_add, show idx + 1 + (n - (idx + 1)) = n by omega] at this
    rw [List.range_eq_range', this]
  rw [h.cellsNum, hsplit, List.filter_append, List.foldl_append, foldl_sub_le q.len ((List.range' 0 (idx + 1)).filter fun j => q.hit e j) (by
    intro j hj
    have := List.mem_of_mem_filter hj
    rw [List.mem_range'_1] at this
    omega), foldl_sub_gt q e idx _ _ _ (by omega) (by rw [h.row_len he]; omega)]

theorem limits_fold (li ui : Nat → Int) : ∀ (es : List Nat) (l0 u0 : Int),
    (∀ z, z ≥ (es.foldl (fun (lu : Int × Int) e => (if li e > lu.1 then li e else lu.1, if ui e < lu.2 then ui e else lu.2)) (l0, u0)).1 ↔
      z ≥ l0 ∧ ∀ e ∈ es, z ≥ li e) ∧
    (∀ z, z ≤ (es.foldl (fun (lu : Int × Int) e => (if li e > lu.1 then li e else lu.1, if ui e < lu.2 then ui e else lu.2)) (l0, u0)).2 ↔
      z ≤ u0 ∧ ∀ e ∈ es, z ≤ ui e) := by
  intro es
  induction es with
  | nil => intro l0 u0; simp
  | cons e es ih =>
    intro l0 u0
    obtain ⟨h1, h2⟩ := ih (if li e > l0 then li e else l0) (if ui e < u0 then ui e else u0)
    rw [List.foldl_cons]
    refine ⟨fun z => ?_, fun z => ?_⟩
    · rw [h1 z, List.forall_mem_cons]
      constructor
      · rintro ⟨a, b⟩; split at a <;> exact ⟨by omega, by omega, b⟩
      · rintro ⟨a, b, c⟩; refine ⟨?_, c⟩; split <;> omega
    · rw [h2 z, List.forall_mem_cons]
      constructor
      · rintro ⟨a, b⟩; split at a <;> exact ⟨by omega, by omega, b⟩
      · rintro ⟨a, b, c⟩; refine ⟨?_, c⟩; split <;> omega

theorem enumLimits_spec {q : Squeezed} {n : Nat} (h : SqOK q n) {idx : Nat} (hi : idx < n) (brem : List Int)
    (hb : ∀ e, e < q.rows.length → 0 ≤ brem.getD e 0) :
    0 ≤ (enumLimits q idx brem).1 ∧ 0 ≤ (enumLimits q idx brem).2 ∧
    ∀ u : Nat, u ∈ rng (enumLimits q idx brem).1.toNat ((enumLimits q idx brem).2.toNat + 1) ↔
      u ≤ q.len idx ∧ ∀ e, e < q.rows.length → q.hit e idx = true →
        (u : Int) ≤ brem.getD e 0 ∧
        brem.getD e 0 ≤ u + (dotFrom q e (idx + 1) (lensFrom q (idx + 1) (n - (idx + 1))) : Nat) := by
  obtain ⟨h1, h2⟩ := limits_fold
    (fun e => (q.cellsOf e).foldl (fun (l : Int) j => if j > idx then l - (q.len j : Nat) else l) (brem.getD e 0))
    (fun e => min (brem.getD e 0) (q.len idx)) (q.eqsOf idx) 0 (q.len idx : Nat)
  have hdef : enumLimits q idx brem = (q.eqsOf idx).foldl (fun (lu : Int × Int) e =>
      (if (q.cellsOf e).foldl (fun (l : Int) j => if j > idx then l - (q.len j : Nat) else l) (brem.getD e 0) > lu.1 then
        (q.cellsOf e).foldl (fun (l : Int) j => if j > idx then l - (q.len j : Nat) else l) (brem.getD e 0) else lu.1,
       if min (brem.getD e 0) (q.len idx : Int) < lu.2 then min (brem.getD e 0) (q.len idx : Int) else lu.2))
      (0, (q.len idx : Nat)) := rfl
  rw [← hdef] at h1 h2
  have lo0 : 0 ≤ (enumLimits q idx brem).1 := ((h1 _).mp le_rfl).1
  have up0 : 0 ≤ (enumLimits q idx brem).2 := by
    rw [h2 0]
    refine ⟨by omega, fun e he => ?_⟩
    have := hb e (mem_eqsOf.mp he).1
    omega
  refine ⟨lo0, up0, fun u => ?_⟩
  rw [mem_rng]
  have e1 : (enumLimits q idx brem).1.toNat ≤ u ↔ (u : Int) ≥ (enumLimits q idx brem).1 := by omega
  have e2 : u < (enumLimits q idx brem).2.toNat + 1 ↔ (u : Int) ≤ (enumLimits q idx brem).2 := by omega
  rw [e1, e2, h1, h2]
  simp only [mem_eqsOf]
  constructor
  · rintro ⟨⟨_, a⟩, b, c⟩
    refine ⟨by omega, fun e he hh => ?_⟩
    have a' := a e ⟨he, hh⟩
    have c' := c e ⟨he, hh⟩
    rw [lowerFold h he hi] at a'
    omega
  · rintro ⟨a, b⟩
    refine ⟨⟨by omega, fun e he => ?_⟩, by omega, fun e he => ?_⟩
    · rw [lowerFold h he.1 hi]
      have := (b e he.1 he.2).2
      omega
    · have := (b e he.1 he.2).1
      omega

theorem modify_fold_getD (u : Nat) : ∀ (es : List Nat) (b : List Int) (e : Nat), es.Nodup → e < b.length →
    (es.foldl (fun (b : List Int) e => b.modify e (· - (u : Int))) b).getD e 0 = b.getD e 0 - (if e ∈ es then (u : Int) else 0) := by
  intro es
  induction es with
  | nil => intro b e _ _; simp
  | cons a es ih =>
    intro b e hn he
    rw [List.nodup_cons] at hn
    rw [List.foldl_cons, ih _ e hn.2 (by simpa using he)]
    have hm : (b.modify a (· - (u : Int))).getD e 0 = if a = e then b.getD e 0 - u else b.getD e 0 := by
      simp only [List.getD_eq_getElem?_getD, List.getElem?_modify, List.getElem?_eq_getElem he]
      split <;> simp
    rw [hm]
    by_cases hae : a = e
    · subst hae
      rw [if_pos rfl, if_neg hn.1, if_pos (by simp)]; omega
    · rw [if_neg hae]
      have : e ∈ a :: es ↔ e ∈ es := by
        rw [List.mem_cons]
        constructor
        · rintro (h | h)
          · exact absurd h.symm hae
          · exact h
        · exact .inr
      simp only [this]

theorem modify_fold_length (u : Nat) : ∀ (es : List Nat) (b : List Int),
    (es.foldl (fun (b : List Int) e => b.modify e (· - (u : Int))) b).length = b.length := by
  intro es
  induction es with
  | nil => intro b; rfl
  | cons a es ih => intro b; rw [List.foldl_cons, ih]; simp

theorem bremSub_getD (q : Squeezed) (idx u : Nat) (brem : List Int) (hl : brem.length = q.rows.length) {e : Nat}
    (he : e < q.rows.length) :
    (bremSub q idx u brem).getD e 0 = brem.getD e 0 - (if q.hit e idx = true then (u : Int) else 0) := by
  unfold bremSub
  rw [modify_fold_getD u _ _ _ (show (q.eqsOf idx).Nodup from List.nodup_range.filter _) (by omega)]
  simp only [mem_eqsOf, he, true_and]

theorem bremSub_length (q : Squeezed) (idx u : Nat) (brem : List Int) :
    (bremSub q idx u brem).length = brem.length := modify_fold_length u _ _

/-! ## the vectors visited -/

/-- The completions the recursion visits. -/
def visit (q : Squeezed) : Nat → Nat → List Int → List (List Nat)
  | 0, _, _ => [[]]
  | r + 1, idx, brem =>
    (rng (enumLimits q idx brem).1.toNat ((enumLimits q idx brem).2.toNat + 1)).flatMap fun u =>
      (visit q r (idx + 1) (bremSub q idx u brem)).map (u :: ·)

theorem nodup_visit (q : Squeezed) : ∀ (r idx : Nat) (brem : List Int), (visit q r idx brem).Nodup := by
  intro r
  induction r with
  | zero => intro idx brem; simp [visit]
  | succ r ih =>
    intro idx brem
    rw [visit, List.nodup_flatMap]
    refine ⟨fun u _ => (ih _ _).map (fun a b h => by simpa using h), ?_⟩
    refine (nodup_rng _ _).imp fun {a b} hab => ?_
    rw [Function.onFun, List.disjoint_left]
    intro v h1 h2
    rw [List.mem_map] at h1 h2
    obtain ⟨w, _, rfl⟩ := h1
    obtain ⟨w', _, h3⟩ := h2
    simp only [List.cons.injEq] at h3
    exact hab h3.1.symm

theorem mem_visit {q : Squeezed} {n : Nat} (h : SqOK q n) : ∀ (r idx : Nat) (brem : List Int) (v : List Nat),
    idx + r = n → brem.length = q.rows.length → (∀ e, e < q.rows.length → 0 ≤ brem.getD e 0) →
    (v ∈ visit q r idx brem ↔ v.length = r ∧ LeLens q idx v ∧
      ∀ e, e < q.rows.length → (∃ j, idx ≤ j ∧ j < n ∧ q.hit e j = true) → (dotFrom q e idx v : Int) = brem.getD e 0) := by
  intro r
  induction r with
  | zero =>
    intro idx brem v hn hl hb
    rw [visit, List.mem_singleton]
    constructor
    · rintro rfl
      exact ⟨rfl, trivial, fun e he ⟨j, h1, h2, _⟩ => by omega⟩
    · rintro ⟨h1, -⟩
      exact List.length_eq_zero_iff.mp h1
  | succ r ih =>
    intro idx brem v hn hl hb
    obtain ⟨l1, l2, l3⟩ := enumLimits_spec h (idx := idx) (by omega) brem hb
    rw [visit]
    simp only [List.mem_flatMap, List.mem_map]
    have hb' : ∀ u, u ∈ rng (enumLimits q idx brem).1.toNat ((enumLimits q idx brem).2.toNat + 1) →
        ∀ e, e < q.rows.length → 0 ≤ (bremSub q idx u brem).getD e 0 := by
      intro u hu e he
      rw [bremSub_getD q idx u brem hl he]
      have := hb e he
      split
      · rename_i hh
        have := (((l3 u).mp hu).2 e he hh).1
        omega
      · omega
    have hr : n - (idx + 1) = r := by omega
    constructor
    · rintro ⟨u, hu, w, hw, rfl⟩
      obtain ⟨w1, w2, w3⟩ := (ih (idx + 1) _ w (by omega) (by rw [bremSub_length]; exact hl) (hb' u hu)).mp hw
      obtain ⟨u1, u2⟩ := (l3 u).mp hu
      refine ⟨by simp [w1], ⟨u1, w2⟩, fun e he hj => ?_⟩
      rw [dotFrom_cons q e idx u w (by rw [h.row_len he]; omega)]
      by_cases htail : ∃ j, idx + 1 ≤ j ∧ j < n ∧ q.hit e j = true
      · have := w3 e he htail
        rw [bremSub_getD q idx u brem hl he] at this
        push_cast
        rw [this]
        split <;> simp
      · have hh : q.hit e idx = true := by
          obtain ⟨j, h1, h2, h3⟩ := hj
          rcases Nat.lt_or_ge idx j with h4 | h4
          · exact absurd ⟨j, by omega, h2, h3⟩ htail
          · rw [show idx = j by omega]; exact h3
        have hz : ∀ (w : List Nat), dotFrom q e (idx + 1) w = 0 := by
          intro w
          unfold dotFrom
          have hall : ∀ c ∈ ((q.rows.getD e ([], 0)).1.drop (idx + 1)), ¬ c ≥ 1 := by
            intro c hc hc1
            obtain ⟨k, hk, rfl⟩ := List.getElem_of_mem hc
            rw [List.getElem_drop] at hc1
            rw [List.length_drop, h.row_len he] at hk
            apply htail
            refine ⟨idx + 1 + k, by omega, by omega, ?_⟩
            unfold Squeezed.hit
            rw [decide_eq_true_eq, List.getD_eq_getElem?_getD (l := (q.rows.getD e ([], 0)).1),
              List.getElem?_eq_getElem (by rw [h.row_len he]; omega)]
            exact hc1
          revert hall
          generalize (q.rows.getD e ([], 0)).1.drop (idx + 1) = a
          intro hall
          induction a generalizing w with
          | nil => simp
          | cons c a iha =>
            cases w with
            | nil => simp
            | cons u w =>
              rw [dotL_cons, if_neg (hall c (by simp)), iha w (fun c hc => hall c (by simp [hc]))]
        obtain ⟨b1, b2⟩ := u2 e he hh
        rw [hz] at b2
        rw [if_pos hh, hz]
        push_cast
        omega
    · rintro ⟨v1, v2, v3⟩
      cases v with
      | nil => simp at v1
      | cons u w =>
        have hw : w.length = r := by simpa using v1
        have hu : u ∈ rng (enumLimits q idx brem).1.toNat ((enumLimits q idx brem).2.toNat + 1) := by
          rw [l3]
          refine ⟨v2.1, fun e he hh => ?_⟩
          have := v3 e he ⟨idx, le_rfl, by omega, hh⟩
          rw [dotFrom_cons q e idx u w (by rw [h.row_len he]; omega), if_pos hh] at this
          have ht := v2.2.dot_le e
          rw [hw] at ht
          rw [hr]
          omega
        refine ⟨u, hu, w, ?_, rfl⟩
        rw [ih (idx + 1) _ w (by omega) (by rw [bremSub_length]; exact hl) (hb' u hu)]
        refine ⟨hw, v2.2, fun e he hj => ?_⟩
        obtain ⟨j, h1, h2, h3⟩ := hj
        have := v3 e he ⟨j, by omega, h2, h3⟩
        rw [dotFrom_cons q e idx u w (by rw [h.row_len he]; omega)] at this
        rw [bremSub_getD q idx u brem hl he, ← this]
        push_cast
        split <;> simp

/-! ## the recursion as a fold -/

/-- The number of ways to realise the counts `v` from group `i` on. -/
def prodC (q : Squeezed) : Nat → List Nat → Nat
  | _, [] => 1
  | i, u :: v => (q.len i).choose u * prodC q (i + 1) v

theorem foldlM_congr' {α β : Type} {m : Type → Type} [Monad m] {f g : β → α → m β} :
    ∀ (l : List α) (b : β), (∀ a ∈ l, ∀ b, f b a = g b a) → l.foldlM f b = l.foldlM g b := by
  intro l
  induction l with
  | nil => intro b _; rfl
  | cons a l ih =>
    intro b h
    rw [List.foldlM_cons, List.foldlM_cons, h a (by simp)]
    congr 1
    funext b'
    exact ih b' (fun a ha => h a (by simp [ha]))

theorem foldlM_flatMap' {α β γ : Type} {m : Type → Type} [Monad m] [LawfulMonad m] (f : β → γ → m β) (F : α → List γ) : ∀ (l : List α) (b : β),
    (l.flatMap F).foldlM f b = l.foldlM (fun b a => (F a).foldlM f b) b := by
  intro l
  induction l with
  | nil => intro b; rfl
  | cons a l ih =>
    intro b
    rw [List.flatMap_cons, List.foldlM_append, List.foldlM_cons]
    congr 1
    funext b'
    exact ih b'

theorem cQuery_choose {n k : Nat} (hn : n ≤ 8) (hk : k ≤ 8) : cQuery n k = some (n.choose k) := by
  have : ∀ n ∈ List.range 9, ∀ k ∈ List.range 9, cQuery n k = some (n.choose k) := by decide
  exact this n (List.mem_range.mpr (by omega)) k (List.mem_range.mpr (by omega))

theorem Except.bind_eq_ok {ε α β : Type} (a : α) (f : α → Except ε β) : ((Except.ok a : Except ε α) >>= f) = f a := rfl

theorem enumStep_eq {q : Squeezed} {n : Nat} (h : SqOK q n) : ∀ (r idx amount : Nat) (brem : List Int)
    (pre : List Nat) (T : Tables), idx + r = n → brem.length = q.rows.length →
    (∀ e, e < q.rows.length → 0 ≤ brem.getD e 0) → pre.length = idx →
    enumStep q r idx amount brem (pre ++ List.replicate r 0) T =
      (visit q r idx brem).foldlM (fun T v => enumLeaf q (amount * prodC q idx v) (pre ++ v) T) T := by
  intro r
  induction r with
  | zero =>
    intro idx amount brem pre T _ _ _ _
    rw [enumStep, visit]
    simp only [prodC, List.replicate_zero, Nat.mul_one, List.foldlM_cons, List.foldlM_nil, bind_pure]
  | succ r ih =>
    intro idx amount brem pre T hn hl hb hp
    obtain ⟨l1, l2, l3⟩ := enumLimits_spec h (idx := idx) (by omega) brem hb
    rw [enumStep, visit]
    rw [if_neg (by omega), foldlM_flatMap', enumRange, if_neg (by omega)]
    apply foldlM_congr'
    intro u hu T
    obtain ⟨u1, u2⟩ := (l3 u).mp hu
    have h8 := h.le idx (by omega)
    rw [cQueryE, cQuery_choose h8 (by omega)]
    simp only [Except.bind_eq_ok]
    have hset : (pre ++ List.replicate (r + 1) 0).set idx u = (pre ++ [u]) ++ List.replicate r 0 := by
      rw [← hp, List.set_append_right _ _ (Nat.le_refl _), Nat.sub_self, List.replicate_succ, List.set_cons_zero]
      simp
    rw [hset, ih (idx + 1) _ _ (pre ++ [u]) T (by omega) (by rw [bremSub_length]; exact hl) (by
      intro e he
      rw [bremSub_getD q idx u brem hl he]
      have := hb e he
      split
      · rename_i hh
        have := (u2 e he hh).1
        omega
      · omega) (by simp [hp])]
    rw [List.foldlM_map]
    apply foldlM_congr'
    intro v _ T
    simp only [prodC, List.append_assoc, List.cons_append, List.nil_append, Nat.mul_assoc]

/-! ## the tables -/

theorem leaf_fold (q : Squeezed) (amt : List Nat → Nat) : ∀ (L : List (List Nat)) (T : Tables) (w : Nat),
    (∀ v ∈ L, v.sum < T.1.length) → T.2.length = T.1.length → (∀ row ∈ T.2, row.length = w) →
    ∃ T', L.foldlM (fun T v => enumLeaf q (amt v) v T) T = .ok T' ∧ T'.1.length = T.1.length ∧
      T'.2.length = T.1.length ∧ (∀ row ∈ T'.2, row.length = w) ∧
      (∀ m, m < T.1.length → T'.1.getD m 0 = T.1.getD m 0 + ((L.filter fun v => v.sum = m).map amt).sum) ∧
      (∀ m, m < T.1.length → ∀ j, j < w → (T'.2.getD m []).getD j 0 =
        (T.2.getD m []).getD j 0 + ((L.filter fun v => v.sum = m).map fun v => amt v * v.getD j 0 / q.len j).sum) := by
  intro L
  induction L with
  | nil =>
    intro T w _ h2 h3
    exact ⟨T, rfl, rfl, h2, h3, by simp, by simp⟩
  | cons v L ih =>
    intro T w h1 h2 h3
    have hv := h1 v (by simp)
    rw [List.foldlM_cons]
    have hleaf : enumLeaf q (amt v) v T = .ok (T.1.modify v.sum (· + amt v),
        T.2.modify v.sum fun row => row.mapIdx fun i x => x + amt v * v.getD i 0 / q.len i) := by
      unfold enumLeaf; rw [if_neg (by omega)]
    rw [hleaf]
    simp only [Except.bind_eq_ok]
    obtain ⟨T', t1, t2, t3, t4, t5, t6⟩ := ih (T.1.modify v.sum (· + amt v),
        T.2.modify v.sum fun row => row.mapIdx fun i x => x + amt v * v.getD i 0 / q.len i) w
      (fun w hw => by simpa using h1 w (by simp [hw])) (by simpa using h2) (by
        intro row hrow
        obtain ⟨i, hi, rfl⟩ := List.getElem_of_mem hrow
        simp only [List.getElem_modify]
        split
        · simp only [List.length_mapIdx]; exact h3 _ (List.getElem_mem _)
        · exact h3 _ (List.getElem_mem _))
    refine ⟨T', t1, by simpa using t2, by simpa using t3, t4, ?_, ?_⟩
    · intro m hm
      rw [t5 m (by simpa using hm)]
      simp only [List.getD_eq_getElem?_getD, List.getElem?_modify, List.getElem?_eq_getElem hm, List.filter_cons,
        decide_eq_true_eq]
      by_cases hmv : v.sum = m
      · simp [hmv]; omega
      · simp [hmv]
    · intro m hm j hj
      rw [t6 m (by simpa using hm) j hj]
      have hm2 : m < T.2.length := by omega
      have hrow : (T.2[m]).length = w := h3 _ (List.getElem_mem hm2)
      simp only [List.getD_eq_getElem?_getD, List.getElem?_modify, List.getElem?_eq_getElem hm2, List.filter_cons,
        decide_eq_true_eq]
      by_cases hmv : v.sum = m
      · have hj2 : j < (T.2[m]).length := by omega
        simp only [hmv, if_true, Option.map_eq_map, Option.map_some, Option.getD_some, List.getElem?_mapIdx,
          List.getElem?_eq_getElem hj2, List.map_cons, List.sum_cons]
        omega
      · simp [hmv]

theorem LeLens.sum_le {q : Squeezed} : ∀ {i : Nat} {v : List Nat}, LeLens q i v → v.sum ≤ (lensFrom q i v.length).sum := by
  intro i v h
  have := h.forall₂
  clear h
  generalize lensFrom q i v.length = w at this
  induction this with
  | nil => simp
  | cons h1 _ ih => simp only [List.sum_cons]; omega

theorem lens_all {q : Squeezed} {n : Nat} (h : SqOK q n) : lensFrom q 0 n = q.groups.map List.length := by
  unfold lensFrom
  apply List.ext_getElem
  · simp [h.groups]
  · intro i h1 h2
    simp only [List.length_map] at h2
    simp only [List.getElem_map, List.getElem_range', Squeezed.len, List.getD_eq_getElem?_getD]
    rw [Nat.zero_add, Nat.one_mul, List.getElem?_eq_getElem h2]
    rfl

/-- The tables computed by the recursion. -/
theorem enumStep_tables {q : Squeezed} {n : Nat} (h : SqOK q n)
    (hb : ∀ r ∈ q.rows, 0 ≤ r.2) (total : Nat) (ht : total = (q.groups.map List.length).sum) :
    ∃ T', enumStep q q.cellsNum 0 1 (q.rows.map (·.2)) (List.replicate q.x.length 0)
        (List.replicate (total + 1) 0, List.replicate (total + 1) (List.replicate q.x.length 0)) = .ok T' ∧
      T'.1.length = total + 1 ∧ T'.2.length = total + 1 ∧ (∀ row ∈ T'.2, row.length = n) ∧
      (∀ m, m ≤ total → T'.1.getD m 0 =
        (((visit q n 0 (q.rows.map (·.2))).filter fun v => v.sum = m).map (prodC q 0)).sum) ∧
      (∀ m, m ≤ total → ∀ j, j < n → (T'.2.getD m []).getD j 0 =
        (((visit q n 0 (q.rows.map (·.2))).filter fun v => v.sum = m).map
          fun v => prodC q 0 v * v.getD j 0 / q.len j).sum) := by
  have hb' : ∀ e, e < q.rows.length → 0 ≤ (q.rows.map (·.2)).getD e 0 := by
    intro e he
    rw [List.getD_eq_getElem?_getD, List.getElem?_map, List.getElem?_eq_getElem he]
    exact hb _ (List.getElem_mem he)
  have e1 := enumStep_eq h n 0 1 (q.rows.map (·.2)) [] (List.replicate (total + 1) 0,
    List.replicate (total + 1) (List.replicate q.x.length 0)) (by omega) (by simp) hb' rfl
  rw [List.nil_append] at e1
  rw [h.cellsNum, h.x]
  rw [h.x] at e1
  rw [e1]
  simp only [Nat.one_mul, List.nil_append]
  obtain ⟨T', t1, t2, t3, t4, t5, t6⟩ := leaf_fold q (prodC q 0) (visit q n 0 (q.rows.map (·.2)))
    (List.replicate (total + 1) 0, List.replicate (total + 1) (List.replicate n 0)) n (by
      intro v hv
      obtain ⟨v1, v2, -⟩ := (mem_visit h n 0 _ v (by omega) (by simp) hb').mp hv
      have := v2.sum_le
      rw [v1, lens_all h, ← ht] at this
      simp; omega) (by simp) (by
      intro row hrow
      rw [List.eq_of_mem_replicate hrow]; simp)
  refine ⟨T', t1, by simpa using t2, by simpa using t3, t4, ?_, ?_⟩
  · intro m hm
    rw [t5 m (by simp; omega)]
    simp only [List.getD_eq_getElem?_getD, List.getElem?_replicate]
    rw [if_pos (by omega)]; simp
  · intro m hm j hj
    rw [t6 m (by simp; omega) j hj]
    simp only [List.getD_eq_getElem?_getD, List.getElem?_replicate]
    rw [if_pos (by omega)]
    simp only [Option.getD_some, List.getElem?_replicate]
    rw [if_pos hj]; simp

end Ms
