import Verif.Lemmas.ObrPicture
import Mathlib.Data.List.Perm.Subperm

/-! # Pictures whose edges run along whole rows and whole columns -/

namespace Ms.Properties
open Ms Ms.Spec

/-- a bit as a number -/
def bitQ (b : Bool) : ℚ := if b then 1 else 0

/-- red depends on the row only, green on the column only; no blue -/
def Straight (x : Image) (R C : Nat → Bool) : Prop :=
  ∀ i, i < x.rows → ∀ j, j < x.cols → x.px i j = ![bitQ (R i), bitQ (C j), 0]

theorem fl32_int {n : ℤ} (h : |n| ≤ 2 ^ 24) : fl32 n = n := fl32_single ⟨n, 0, h, by simp⟩

theorem bitQ_int (b : Bool) : ∃ n : ℤ, bitQ b = n ∧ 0 ≤ n ∧ n ≤ 1 := by
  cases b
  · exact ⟨0, by simp [bitQ]⟩
  · exact ⟨1, by simp [bitQ]⟩

theorem six_int {a b c d e f : ℤ} (ha : |a| ≤ 1) (hb : |b| ≤ 1) (hc : |c| ≤ 1) (hd : |d| ≤ 1) (he : |e| ≤ 1) (hf : |f| ≤ 1) :
    six a b c d e f = ((-a - b - c + d + e + f : ℤ) : ℚ) := by
  rw [abs_le] at *
  unfold six
  have e1 : ((-(a : ℚ) - b) : ℚ) = ((-a - b : ℤ) : ℚ) := by push_cast; ring
  rw [e1, fl32_int (by rw [abs_le]; omega)]
  have e2 : (((-a - b : ℤ) : ℚ) - c) = ((-a - b - c : ℤ) : ℚ) := by push_cast; ring
  rw [e2, fl32_int (by rw [abs_le]; omega)]
  have e3 : (((-a - b - c : ℤ) : ℚ) + d) = ((-a - b - c + d : ℤ) : ℚ) := by push_cast; ring
  rw [e3, fl32_int (by rw [abs_le]; omega)]
  have e4 : (((-a - b - c + d : ℤ) : ℚ) + e) = ((-a - b - c + d + e : ℤ) : ℚ) := by push_cast; ring
  rw [e4, fl32_int (by rw [abs_le]; omega)]
  have e5 : (((-a - b - c + d + e : ℤ) : ℚ) + f) = ((-a - b - c + d + e + f : ℤ) : ℚ) := by push_cast; ring
  rw [e5, fl32_int (by rw [abs_le]; omega)]

theorem six_same (b c d : Bool) : six (bitQ b) (bitQ c) (bitQ d) (bitQ b) (bitQ c) (bitQ d) = 0 := by
  obtain ⟨x, hx, x0, x1⟩ := bitQ_int b
  obtain ⟨y, hy, y0, y1⟩ := bitQ_int c
  obtain ⟨z, hz, z0, z1⟩ := bitQ_int d
  rw [hx, hy, hz, six_int (by rw [abs_le]; omega) (by rw [abs_le]; omega) (by rw [abs_le]; omega) (by rw [abs_le]; omega)
    (by rw [abs_le]; omega) (by rw [abs_le]; omega)]
  push_cast
  ring

theorem six_side (b c : Bool) : |six (bitQ b) (bitQ b) (bitQ b) (bitQ c) (bitQ c) (bitQ c)| = if b != c then 3 else 0 := by
  obtain ⟨x, hx, x0, x1⟩ := bitQ_int b
  obtain ⟨y, hy, y0, y1⟩ := bitQ_int c
  rw [hx, hy, six_int (by rw [abs_le]; omega) (by rw [abs_le]; omega) (by rw [abs_le]; omega) (by rw [abs_le]; omega)
    (by rw [abs_le]; omega) (by rw [abs_le]; omega)]
  cases b <;> cases c <;> simp [bitQ] at hx hy <;> norm_cast at hx hy <;> subst hx <;> subst hy <;> norm_num

theorem keepMax_zero {g : ℚ} (h : |g| = 0) {m : ℚ} (hm : 0 ≤ m) : keepMax m g = m := by
  unfold keepMax
  rw [h]
  split
  · rfl
  · rename_i h2
    exact le_antisymm hm (not_lt.mp h2)

theorem straight_grad {x : Image} {R C : Nat → Bool} (hx : Straight x R C) {i j : Nat} (hi : i + 2 < x.rows) (hj : j + 2 < x.cols) :
    gradAt x i j = if (R i != R (i + 2)) || (C j != C (j + 2)) then 3 else 0 := by
  have r : ∀ a, a ≤ 2 → ∀ b, b ≤ 2 → x.px (i + a) (j + b) = ![bitQ (R (i + a)), bitQ (C (j + b)), 0] :=
    fun a ha b hb => hx _ (by omega) _ (by omega)
  have r00 := r 0 (by omega) 0 (by omega)
  have r01 := r 0 (by omega) 1 (by omega)
  have r02 := r 0 (by omega) 2 (by omega)
  have r10 := r 1 (by omega) 0 (by omega)
  have r12 := r 1 (by omega) 2 (by omega)
  have r20 := r 2 (by omega) 0 (by omega)
  have r21 := r 2 (by omega) 1 (by omega)
  have r22 := r 2 (by omega) 2 (by omega)
  simp only [Nat.add_zero] at r00 r01 r02 r10 r12 r20 r21 r22
  unfold gradAt
  rw [r00, r01, r02, r10, r12, r20, r21, r22]
  have k0 : ∀ (a b : ℚ), (![a, b, 0] : Fin 3 → ℚ) 0 = a := fun _ _ => rfl
  have k1 : ∀ (a b : ℚ), (![a, b, 0] : Fin 3 → ℚ) 1 = b := fun _ _ => rfl
  have k2 : ∀ (a b : ℚ), (![a, b, 0] : Fin 3 → ℚ) 2 = 0 := fun _ _ => rfl
  simp only [List.foldl_cons, List.foldl_nil, k0, k1, k2]
  have z : six 0 0 0 0 0 0 = 0 := six_same false false false
  rw [six_same, six_same, z]
  have s1 := six_side (R i) (R (i + 2))
  have s2 := six_side (C j) (C (j + 2))
  generalize six (bitQ (R i)) (bitQ (R i)) (bitQ (R i)) (bitQ (R (i + 2))) (bitQ (R (i + 2))) (bitQ (R (i + 2))) = u at *
  generalize six (bitQ (C j)) (bitQ (C j)) (bitQ (C j)) (bitQ (C (j + 2))) (bitQ (C (j + 2))) (bitQ (C (j + 2))) = v at *
  have hk : ∀ m : ℚ, 0 ≤ m → keepMax m 0 = m := fun m hm => keepMax_zero (abs_zero) hm
  have e1 : keepMax 0 u = if R i != R (i + 2) then 3 else 0 := by
    unfold keepMax
    rw [s1]
    cases R i <;> cases R (i + 2) <;> norm_num
  have p1 : (0 : ℚ) ≤ if R i != R (i + 2) then 3 else 0 := by split <;> norm_num
  rw [e1, hk _ p1, hk _ p1]
  have e2 : keepMax (if R i != R (i + 2) then 3 else 0) v = if (R i != R (i + 2)) || (C j != C (j + 2)) then 3 else 0 := by
    unfold keepMax
    rw [s2]
    cases R i <;> cases R (i + 2) <;> cases C j <;> cases C (j + 2) <;> norm_num
  have p2 : (0 : ℚ) ≤ if (R i != R (i + 2)) || (C j != C (j + 2)) then 3 else 0 := by split <;> norm_num
  rw [e2, hk _ p2, hk _ p2]

/-- the edges of such a picture -/
theorem straight_px {x : Image} {R C : Nat → Bool} (hx : Straight x R C) (hr : 4 ≤ x.rows) (hc : 4 ≤ x.cols) :
    ∃ g b, gradient x = some g ∧ binarize g = some b ∧ b.rows = x.rows - 2 ∧ b.cols = x.cols - 2 ∧
      ∀ i, i < b.rows → ∀ j, j < b.cols → b.read i j = some ((R i != R (i + 2)) || (C j != C (j + 2))) := by
  obtain ⟨g, g1, g2, g3, g4⟩ := gradient_px (x := x) (by omega) (by omega)
  obtain ⟨b, th, b1, b2, b3, t1, t2, b4⟩ := binarize_px (g := g) (by omega) (by omega)
  refine ⟨g, b, g1, b1, by omega, by omega, fun i hi j hj => ?_⟩
  rw [read_some hi hj, b4, g4 i (by omega) j (by omega), straight_grad hx (by omega) (by omega)]
  congr 1
  have := low_threshold.1
  cases (R i != R (i + 2)) || (C j != C (j + 2))
  · rw [decide_eq_false_iff_not, not_le]
    simp
    linarith
  · rw [decide_eq_true_iff]
    simp
    linarith

/-! ## the first cut -/

theorem fifth_found {hit : Nat → Option Bool} {E : Nat → Bool} : ∀ {ns : List Nat} {k : Nat}, (∀ n ∈ ns, hit n = some (E n)) → k < 5 →
    5 ≤ k + (ns.filter E).length → ∃ n ∈ ns, E n = true ∧ fifth hit k ns = some (some n)
  | [], k, _, hk, h => by simp at h; omega
  | n :: l, k, hh, hk, h => by
    unfold fifth
    rw [hh n (by simp)]
    cases hE : E n with
    | true =>
      by_cases h5 : k + 1 ≥ 5
      · exact ⟨n, by simp, hE, by simp [h5]⟩
      · obtain ⟨n', a, b, c⟩ := fifth_found (ns := l) (k := k + 1) (fun n hn => hh n (by simp [hn])) (by omega) (by
          rw [List.filter_cons, if_pos hE, List.length_cons] at h
          omega)
        exact ⟨n', by simp [a], b, by simp [h5, c]⟩
    | false =>
      obtain ⟨n', a, b, c⟩ := fifth_found (ns := l) (k := k) (fun n hn => hh n (by simp [hn])) hk (by
        rw [List.filter_cons, if_neg (by simp [hE])] at h
        exact h)
      exact ⟨n', by simp [a], b, by simp [c]⟩

theorem scanDown_edge {hit : Nat → Nat → Option Bool} {ns : List Nat} : ∀ {fuel c pos : Nat}, c < fuel →
    (∀ j, j < c → hit pos j = some true) → scanDown hit ns fuel c pos = some 0
  | 0, _, _, h, _ => by omega
  | fuel + 1, c, pos, hf, h => by
    unfold scanDown
    by_cases hc : c = 0
    · rw [if_pos hc]
    · rw [if_neg hc, h (c - 1) (by omega)]
      simpa using scanDown_edge (fuel := fuel) (c := c - 1) (pos := pos) (by omega) (fun j hj => h j (by omega))

theorem scanDown_full {hit : Nat → Nat → Option Bool} {ns : List Nat} {E F : Nat → Bool} : ∀ {fuel c pos : Nat}, c < fuel →
    (∀ n, n ∈ ns ∨ n = pos → ∀ j, j < c → hit n j = some (E n || F j)) → 5 ≤ (ns.filter E).length →
    (∃ j, 1 ≤ j ∧ j < c ∧ F j = false) → scanDown hit ns fuel c pos = some 0
  | 0, _, _, h, _, _, _ => by omega
  | fuel + 1, c, pos, hf, h, h5, ⟨j, j1, j2, j3⟩ => by
    by_cases hE : E pos = true
    · exact scanDown_edge hf (fun j hj => by rw [h pos (.inr rfl) j hj, hE]; rfl)
    · have hE' : E pos = false := by simpa using hE
      unfold scanDown
      rw [if_neg (by omega), h pos (.inr rfl) (c - 1) (by omega), hE', Bool.false_or]
      cases hF : F (c - 1) with
      | true =>
        have : j ≠ c - 1 := by rintro rfl; rw [hF] at j3; cases j3
        simpa using scanDown_full (fuel := fuel) (c := c - 1) (pos := pos) (by omega) (fun n hn i hi => h n hn i (by omega)) h5
          ⟨j, j1, by omega, j3⟩
      | false =>
        obtain ⟨n, a1, a2, a3⟩ := fifth_found (hit := fun n => hit n (c - 1)) (E := E) (ns := ns) (k := 0)
          (fun n hn => by rw [h n (.inl hn) (c - 1) (by omega), hF, Bool.or_false]) (by omega) (by omega)
        have hs : skipDown hit ns c [1, 2, 3] = some (some (c - 1, n)) := by
          unfold skipDown
          rw [if_neg (by omega), a3]
          rfl
        simp only [Option.bind_eq_bind, Option.bind_some, hs]
        simpa using scanDown_edge (hit := hit) (ns := ns) (fuel := fuel) (c := c - 1) (pos := n) (by omega)
          (fun i hi => by rw [h n (.inl a1) i (by omega), a2]; rfl)

theorem scanUp_edge {hit : Nat → Nat → Option Bool} {ns : List Nat} {last : Nat} : ∀ {fuel c pos : Nat}, last < fuel + c → c ≤ last →
    (∀ j, j ≤ last → hit pos j = some true) → scanUp hit ns last fuel c pos = some last
  | 0, _, _, h, _, _ => by omega
  | fuel + 1, c, pos, hf, hl, h => by
    unfold scanUp
    by_cases hc : c = last
    · rw [if_pos hc]
    · rw [if_neg hc, h (c + 1) (by omega)]
      simpa using scanUp_edge (fuel := fuel) (c := c + 1) (pos := pos) (by omega) (by omega) h

theorem scanUp_full {hit : Nat → Nat → Option Bool} {ns : List Nat} {last : Nat} {E F : Nat → Bool} : ∀ {fuel c pos : Nat},
    last < fuel + c → (∀ n, n ∈ ns ∨ n = pos → ∀ j, j ≤ last → hit n j = some (E n || F j)) → 5 ≤ (ns.filter E).length →
    (∃ j, c < j ∧ j < last ∧ F j = false) → scanUp hit ns last fuel c pos = some last
  | 0, _, _, h, _, _, ⟨j, _, _, _⟩ => by omega
  | fuel + 1, c, pos, hf, h, h5, ⟨j, j1, j2, j3⟩ => by
    by_cases hE : E pos = true
    · exact scanUp_edge hf (by omega) (fun j hj => by rw [h pos (.inr rfl) j hj, hE]; rfl)
    · have hE' : E pos = false := by simpa using hE
      unfold scanUp
      rw [if_neg (by omega), h pos (.inr rfl) (c + 1) (by omega), hE', Bool.false_or]
      cases hF : F (c + 1) with
      | true =>
        have : j ≠ c + 1 := by rintro rfl; rw [hF] at j3; cases j3
        simpa using scanUp_full (fuel := fuel) (c := c + 1) (pos := pos) (by omega) h h5
          ⟨j, by omega, j2, j3⟩
      | false =>
        obtain ⟨n, a1, a2, a3⟩ := fifth_found (hit := fun n => hit n (c + 1)) (E := E) (ns := ns) (k := 0)
          (fun n hn => by rw [h n (.inl hn) (c + 1) (by omega), hF, Bool.or_false]) (by omega) (by omega)
        have hs : skipUp hit ns last c [1, 2, 3] = some (some (c + 1, n)) := by
          unfold skipUp
          rw [if_neg (by omega), a3]
          rfl
        simp only [Option.bind_eq_bind, Option.bind_some, hs]
        simpa using scanUp_edge (hit := hit) (ns := ns) (last := last) (fuel := fuel) (c := c + 1) (pos := n) (by omega)
          (by omega) (fun i hi => by rw [h n (.inl a1) i (by omega), a2]; rfl)

/-- nothing is cut off when edges run along whole rows and columns, enough of them in the middle third -/
theorem straight_cut {b : Pic Bool} {E F : Nat → Bool} (hr : 3 ≤ b.rows) (hc : 3 ≤ b.cols)
    (hb : ∀ i, i < b.rows → ∀ j, j < b.cols → b.read i j = some (E i || F j))
    (hE : (E (b.rows / 3) = true) ∨ (5 ≤ ((rng (b.rows / 3) (b.rows * 2 / 3)).filter E).length ∧
      (∃ j, 1 ≤ j ∧ j < b.cols / 2 ∧ F j = false) ∧ ∃ j, b.cols / 2 < j ∧ j < b.cols - 1 ∧ F j = false))
    (hF : (∀ i, i < b.rows → E i = true) ∨ (F (b.cols / 3) = true) ∨ (5 ≤ ((rng (b.cols / 3) (b.cols * 2 / 3)).filter F).length ∧
      (∃ j, 1 ≤ j ∧ j < b.rows / 2 ∧ E j = false) ∧ ∃ j, b.rows / 2 < j ∧ j < b.rows - 1 ∧ E j = false)) :
    cutOut b = some ⟨0, b.rows - 1, 0, b.cols - 1, b.rows / 3, b.rows * 2 / 3, b.cols / 3, b.cols * 2 / 3⟩ := by
  have a1 : scanDown (fun n c => b.read n c) (rng (b.rows / 3) (b.rows * 2 / 3)) (b.cols + 1) (b.cols / 2) (b.rows / 3) = some 0 := by
    rcases hE with h | ⟨h, h1, h2⟩
    · exact scanDown_edge (by omega) (fun j hj => by rw [hb _ (by omega) j (by omega), h]; rfl)
    · exact scanDown_full (E := E) (F := F) (by omega) (fun n hn j hj => by
        rw [mem_rng'] at hn
        exact hb n (by omega) j (by omega)) h h1
  have a2 : scanUp (fun n c => b.read n c) (rng (b.rows / 3) (b.rows * 2 / 3)) (b.cols - 1) (b.cols + 1) (b.cols / 2) (b.rows / 3) =
      some (b.cols - 1) := by
    rcases hE with h | ⟨h, h1, h2⟩
    · exact scanUp_edge (by omega) (by omega) (fun j hj => by rw [hb _ (by omega) j (by omega), h]; rfl)
    · exact scanUp_full (E := E) (F := F) (by omega) (fun n hn j hj => by
        rw [mem_rng'] at hn
        exact hb n (by omega) j (by omega)) h h2
  have a3 : scanDown (fun n r => b.read r n) (rng (b.cols / 3) (b.cols * 2 / 3)) (b.rows + 1) (b.rows / 2) (b.cols / 3) = some 0 := by
    rcases hF with h | h | ⟨h, h1, h2⟩
    · exact scanDown_edge (by omega) (fun j hj => by rw [hb j (by omega) _ (by omega), h j (by omega)]; rfl)
    · exact scanDown_edge (by omega) (fun j hj => by rw [hb j (by omega) _ (by omega), h, Bool.or_true])
    · exact scanDown_full (E := F) (F := E) (by omega) (fun n hn j hj => by
        rw [mem_rng'] at hn
        rw [hb j (by omega) n (by omega), Bool.or_comm]) h h1
  have a4 : scanUp (fun n r => b.read r n) (rng (b.cols / 3) (b.cols * 2 / 3)) (b.rows - 1) (b.rows + 1) (b.rows / 2) (b.cols / 3) =
      some (b.rows - 1) := by
    rcases hF with h | h | ⟨h, h1, h2⟩
    · exact scanUp_edge (by omega) (by omega) (fun j hj => by rw [hb j (by omega) _ (by omega), h j (by omega)]; rfl)
    · exact scanUp_edge (by omega) (by omega) (fun j hj => by rw [hb j (by omega) _ (by omega), h, Bool.or_true])
    · exact scanUp_full (E := F) (F := E) (by omega) (fun n hn j hj => by
        rw [mem_rng'] at hn
        rw [hb j (by omega) n (by omega), Bool.or_comm]) h h2
  unfold cutOut
  rw [if_neg (by omega)]
  simp only [a1, a2, a3, a4, Option.bind_eq_bind, Option.bind_some]
  rfl

/-- ... so the scores are taken over the whole picture of edges -/
theorem straight_posPixel {x : Image} {b : Pic Bool} {g : Pic ℚ} (h1 : gradient x = some g) (h2 : binarize g = some b)
    (hr : b.rows = x.rows - 2) (hc : b.cols = x.cols - 2) (h3 : 3 ≤ b.rows) (h3' : 3 ≤ b.cols)
    (hk : cutOut b = some ⟨0, b.rows - 1, 0, b.cols - 1, b.rows / 3, b.rows * 2 / 3, b.cols / 3, b.cols * 2 / 3⟩) :
    posPixel x = (do
      let cs ← scores (fun i j => b.read i j) 0 (b.rows - 1) 0 (b.cols - 1)
      let rs ← scores (fun i j => b.read j i) 0 (b.cols - 1) 0 (b.rows - 1)
      let c ← getLine cs
      let r ← getLine rs
      return (x, some ⟨r.1, r.2.1, r.2.2, c.1, c.2.1, c.2.2, 0, 0⟩)) := by
  have he : edges x = some (b, ⟨0, b.rows - 1, 0, b.cols - 1, b.rows / 3, b.rows * 2 / 3, b.cols / 3, b.cols * 2 / 3⟩) := by
    simp [edges, h1, h2, hk]
  have ht : tooSmall ⟨0, b.rows - 1, 0, b.cols - 1, b.rows / 3, b.rows * 2 / 3, b.cols / 3, b.cols * 2 / 3⟩ (x.rows - 2) (x.cols - 2) =
      some false := by
    unfold tooSmall
    rw [if_neg (by simp), if_neg (by simp; omega), if_neg (by simp)]
    simp
    omega
  have hs : shrink (x.rows + 2) x ⟨0, b.rows - 1, 0, b.cols - 1, b.rows / 3, b.rows * 2 / 3, b.cols / 3, b.cols * 2 / 3⟩ (x.rows - 2)
      (x.cols - 2) = some (x, some (⟨0, b.rows - 1, 0, b.cols - 1, b.rows / 3, b.rows * 2 / 3, b.cols / 3, b.cols * 2 / 3⟩, x.rows - 2,
        x.cols - 2)) := by
    unfold shrink
    simp only [ht, Option.bind_eq_bind, Option.bind_some]
    rfl
  have hw : widen b ⟨0, b.rows - 1, 0, b.cols - 1, b.rows / 3, b.rows * 2 / 3, b.cols / 3, b.cols * 2 / 3⟩ (x.rows - 2) (x.cols - 2) =
      some ⟨0, b.rows - 1, 0, b.cols - 1, b.rows / 3, b.rows * 2 / 3, b.cols / 3, b.cols * 2 / 3⟩ := by
    unfold widen
    rw [if_neg (by omega)]
    have e1 : (rng 1 (0 + 1)).reverse = [] := rfl
    have e2 : rng (b.cols - 1) (x.cols - 2 - 1) = [] := by rw [← hc]; simp [rng]
    have e3 : rng (b.rows - 1) (x.rows - 2 - 1) = [] := by rw [← hr]; simp [rng]
    simp only [e1, e2, e3, pushTo, Option.bind_eq_bind, Option.bind_some]
    rfl
  unfold posPixel
  simp only [he, hs, hw, bothScores, Option.bind_eq_bind, Option.bind_some]
  cases scores (fun i j => b.read i j) 0 (b.rows - 1) 0 (b.cols - 1) with
  | none => rfl
  | some cs =>
    simp only [Option.bind_some]
    cases scores (fun i j => b.read j i) 0 (b.cols - 1) 0 (b.rows - 1) <;> rfl

end Ms.Properties
