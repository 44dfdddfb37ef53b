import Verif.Lemmas.ObrPanics

/-! # Simple pictures: flat ones, and ones with straight edges -/

namespace Ms.Properties
open Ms Ms.Spec

/-- the gradient at a place -/
def gradAt (x : Image) (i j : Nat) : ℚ :=
  ([0, 1, 2] : List (Fin 3)).foldl (fun m k =>
    keepMax (keepMax m (six (x.px i j k) (x.px i (j + 1) k) (x.px i (j + 2) k) (x.px (i + 2) j k) (x.px (i + 2) (j + 1) k)
      (x.px (i + 2) (j + 2) k)))
      (six (x.px i j k) (x.px (i + 1) j k) (x.px (i + 2) j k) (x.px i (j + 2) k) (x.px (i + 1) (j + 2) k) (x.px (i + 2) (j + 2) k))) 0

theorem gradient_px {x : Image} (hr : 2 ≤ x.rows) (hc : 2 ≤ x.cols) :
    ∃ g, gradient x = some g ∧ g.rows = x.rows - 2 ∧ g.cols = x.cols - 2 ∧
      ∀ i, i < g.rows → ∀ j, j < g.cols → g.px i j = gradAt x i j := by
  unfold gradient
  rw [if_neg (by omega)]
  have hf : ∀ i, i < x.rows - 2 → ∀ j, j < x.cols - 2 → (do
    let a ← x.read i j
    let b ← x.read i (j + 1)
    let c ← x.read i (j + 2)
    let d ← x.read (i + 1) j
    let e ← x.read (i + 1) (j + 2)
    let f ← x.read (i + 2) j
    let g ← x.read (i + 2) (j + 1)
    let h ← x.read (i + 2) (j + 2)
    return ([0, 1, 2] : List (Fin 3)).foldl (fun m k =>
      keepMax (keepMax m (six (a k) (b k) (c k) (f k) (g k) (h k))) (six (a k) (d k) (f k) (c k) (e k) (h k))) 0 : Option ℚ) =
      some (gradAt x i j) := by
    intro i hi j hj
    rw [read_some (by omega) (by omega), read_some (by omega) (by omega), read_some (by omega) (by omega),
      read_some (by omega) (by omega), read_some (by omega) (by omega), read_some (by omega) (by omega),
      read_some (by omega) (by omega), read_some (by omega) (by omega)]
    rfl
  obtain ⟨p, p1, p2, p3, p4⟩ := build_some (α := ℚ) (rows := x.rows - 2) (cols := x.cols - 2) (f := fun i j => do
    let a ← x.read i j
    let b ← x.read i (j + 1)
    let c ← x.read i (j + 2)
    let d ← x.read (i + 1) j
    let e ← x.read (i + 1) (j + 2)
    let f ← x.read (i + 2) j
    let g ← x.read (i + 2) (j + 1)
    let h ← x.read (i + 2) (j + 2)
    return ([0, 1, 2] : List (Fin 3)).foldl (fun m k =>
      keepMax (keepMax m (six (a k) (b k) (c k) (f k) (g k) (h k))) (six (a k) (d k) (f k) (c k) (e k) (h k))) 0)
      (fun i hi j hj => by rw [hf i hi j hj]; rfl)
  refine ⟨p, p1, p2, p3, fun i hi j hj => ?_⟩
  have := p4 i (by omega) j (by omega)
  rw [hf i (by omega) j (by omega)] at this
  exact (Option.some.inj this).symm

/-- the lowest threshold -/
theorem low_threshold : 0 < fl32 (1 / 100) ∧ fl32 (1 / 100) ≤ 1 ∧ 9 / 1000 < fl32 (1 / 100) := by
  have a := fl32_ge (x := 1 / 100) (by norm_num)
  have b := fl32_le (x := 1 / 100) (by norm_num)
  norm_num at a b
  refine ⟨by linarith, by linarith, by linarith⟩

theorem mapM_all {α β : Type} {f : α → Option β} {P : β → Prop} {l : List α} {m : List β} (h : l.mapM f = some m)
    (hp : ∀ a ∈ l, ∀ b, f a = some b → P b) : ∀ b ∈ m, P b := by
  induction l generalizing m with
  | nil =>
    cases h
    simp
  | cons a l ih =>
    rw [List.mapM_cons] at h
    cases hb : f a with
    | none => rw [hb] at h; cases h
    | some b =>
      cases hm : l.mapM f with
      | none => rw [hb, hm] at h; cases h
      | some m' =>
        rw [hb, hm] at h
        cases h
        intro c hc
        rcases List.mem_cons.mp hc with rfl | hc
        · exact hp a (by simp) c hb
        · exact ih hm (fun a ha => hp a (by simp [ha])) c hc

theorem binarize_px {g : Pic ℚ} (hr : 2 ≤ g.rows) (hc : 2 ≤ g.cols) :
    ∃ b th, binarize g = some b ∧ b.rows = g.rows ∧ b.cols = g.cols ∧ fl32 (1 / 100) ≤ th ∧ th ≤ 1 ∧
      (∀ i j, b.px i j = decide (th ≤ g.px i j)) := by
  obtain ⟨th, h⟩ := threshold_some hr hc
  have hth : fl32 (1 / 100) ≤ th ∧ th ≤ 1 := by
    obtain ⟨l0, l1, -⟩ := low_threshold
    unfold threshold at h
    cases hm : (((rng (g.rows / 4) (g.rows * 3 / 4)).flatMap fun i =>
        (rng (g.cols / 4) (g.cols * 3 / 4)).map fun j => (i, j)).mapM fun p => g.read p.1 p.2) with
    | none => rw [hm] at h; cases h
    | some ss =>
      rw [hm] at h
      simp only [Option.bind_eq_bind, Option.bind_some] at h
      cases ht : (sortQ ss)[toIdx (fl32 (fl32 ss.length * fl32 (55 / 100)))]? with
      | none => rw [ht] at h; cases h
      | some t =>
        rw [ht] at h
        have e : (if t > 1 then 1 else if t < fl32 (1 / 100) then fl32 (1 / 100) else t) = th := by simpa using h
        rw [← e]
        split
        · exact ⟨l1, le_rfl⟩
        · rename_i h1
          split
          · exact ⟨le_rfl, l1⟩
          · rename_i h2
            exact ⟨not_lt.mp h2, not_lt.mp h1⟩
  unfold binarize
  rw [if_neg (by omega), h]
  exact ⟨_, th, rfl, rfl, rfl, hth.1, hth.2, fun i j => rfl⟩

/-! ## flat pictures -/

/-- one colour everywhere -/
def Flat (x : Image) : Prop := ∃ v : Fin 3 → ℚ, (∀ k, 0 ≤ v k ∧ v k ≤ 1) ∧ ∀ i, i < x.rows → ∀ j, j < x.cols → x.px i j = v

theorem six_flat {a : ℚ} (h0 : 0 ≤ a) (h1 : a ≤ 1) : |six a a a a a a| ≤ 1 / 1000 := by
  have step : ∀ (u e c : ℚ), |u - c| ≤ e → |c| ≤ 3 → e ≤ 1 → |fl32 u - c| ≤ e + 4 / 2 ^ 24 := by
    intro u e c h hc he
    have h2 := fl32_err u
    have h3 : |u| ≤ 4 := by
      have := abs_sub_abs_le_abs_sub u c
      linarith
    have h4 : |u| / 2 ^ 24 ≤ 4 / 2 ^ 24 := by
      rw [div_le_div_iff_of_pos_right (by norm_num)]
      exact h3
    have h5 : |fl32 u - c| ≤ |fl32 u - u| + |u - c| := by
      have := abs_add_le (fl32 u - u) (u - c)
      rwa [sub_add_sub_cancel] at this
    linarith
  have ab : ∀ c : ℚ, -3 ≤ c → c ≤ 3 → |c| ≤ 3 := fun c p q => abs_le.mpr ⟨p, q⟩
  unfold six
  have s1 : |fl32 (-a - a) - -2 * a| ≤ 4 / 2 ^ 24 := by
    have := step (-a - a) 0 (-2 * a) (by rw [show -a - a - -2 * a = 0 by ring, abs_zero]) (ab _ (by linarith) (by linarith)) (by norm_num)
    rwa [zero_add] at this
  generalize fl32 (-a - a) = u1 at *
  have s2 : |fl32 (u1 - a) - -3 * a| ≤ 8 / 2 ^ 24 := by
    have := step (u1 - a) (4 / 2 ^ 24) (-3 * a) (by rw [show u1 - a - -3 * a = u1 - -2 * a by ring]; exact s1)
      (ab _ (by linarith) (by linarith)) (by norm_num)
    norm_num at this ⊢
    exact this
  generalize fl32 (u1 - a) = u2 at *
  have s3 : |fl32 (u2 + a) - -2 * a| ≤ 12 / 2 ^ 24 := by
    have := step (u2 + a) (8 / 2 ^ 24) (-2 * a) (by rw [show u2 + a - -2 * a = u2 - -3 * a by ring]; exact s2)
      (ab _ (by linarith) (by linarith)) (by norm_num)
    norm_num at this ⊢
    exact this
  generalize fl32 (u2 + a) = u3 at *
  have s4 : |fl32 (u3 + a) - -a| ≤ 16 / 2 ^ 24 := by
    have := step (u3 + a) (12 / 2 ^ 24) (-a) (by rw [show u3 + a - -a = u3 - -2 * a by ring]; exact s3)
      (ab _ (by linarith) (by linarith)) (by norm_num)
    norm_num at this ⊢
    exact this
  generalize fl32 (u3 + a) = u4 at *
  have s5 := step (u4 + a) (16 / 2 ^ 24) 0 (by rw [show u4 + a - 0 = u4 - -a by ring]; exact s4)
    (ab _ (by linarith) (by linarith)) (by norm_num)
  rw [sub_zero] at s5
  refine le_trans s5 ?_
  norm_num

theorem keepMax_le {m g c : ℚ} (h1 : m ≤ c) (h2 : |g| ≤ c) : keepMax m g ≤ c := by
  unfold keepMax
  split
  · exact h1
  · exact h2

theorem flat_grad {x : Image} (h : Flat x) {i j : Nat} (hi : i + 2 < x.rows) (hj : j + 2 < x.cols) : gradAt x i j ≤ 1 / 1000 := by
  obtain ⟨v, hv, hx⟩ := h
  unfold gradAt
  rw [hx i (by omega) j (by omega), hx i (by omega) (j + 1) (by omega), hx i (by omega) (j + 2) (by omega),
    hx (i + 1) (by omega) j (by omega), hx (i + 1) (by omega) (j + 2) (by omega), hx (i + 2) (by omega) j (by omega),
    hx (i + 2) (by omega) (j + 1) (by omega), hx (i + 2) (by omega) (j + 2) (by omega)]
  have s : ∀ k, |six (v k) (v k) (v k) (v k) (v k) (v k)| ≤ 1 / 1000 := fun k => six_flat (hv k).1 (hv k).2
  simp only [List.foldl_cons, List.foldl_nil]
  exact keepMax_le (keepMax_le (keepMax_le (keepMax_le (keepMax_le (keepMax_le (by norm_num) (s 0)) (s 0)) (s 1)) (s 1)) (s 2)) (s 2)

theorem fifth_none {hit : Nat → Option Bool} : ∀ {ns : List Nat} {k : Nat}, (∀ n ∈ ns, hit n = some false) → fifth hit k ns = some none
  | [], _, _ => rfl
  | n :: l, k, h => by
    unfold fifth
    rw [h n (by simp)]
    simpa using fifth_none (hit := hit) (ns := l) (k := k) fun m hm => h m (by simp [hm])

theorem skipDown_none {hit : Nat → Nat → Option Bool} {ns : List Nat} {c : Nat} (h : ∀ n ∈ ns, ∀ j, j < c → hit n j = some false) :
    ∀ {ks : List Nat}, (∀ k ∈ ks, 1 ≤ k) → skipDown hit ns c ks = some none
  | [], _ => rfl
  | k :: ks, hk => by
    have h1 := hk k (by simp)
    unfold skipDown
    by_cases hc : c ≤ k
    · rw [if_pos hc]
    · rw [if_neg hc, fifth_none fun n hn => h n hn _ (by omega)]
      simpa using skipDown_none h (ks := ks) fun k' h' => hk k' (by simp [h'])

theorem scanDown_none {hit : Nat → Nat → Option Bool} {ns : List Nat} {fuel c pos : Nat} (hf : 0 < fuel)
    (h : ∀ n, n ∈ ns ∨ n = pos → ∀ j, j < c → hit n j = some false) : scanDown hit ns fuel c pos = some c := by
  obtain ⟨f, rfl⟩ : ∃ f, fuel = f + 1 := ⟨fuel - 1, by omega⟩
  unfold scanDown
  by_cases hc : c = 0
  · rw [if_pos hc, hc]
  · rw [if_neg hc, h pos (.inr rfl) (c - 1) (by omega)]
    simp only [Option.bind_eq_bind, Option.bind_some, Bool.false_eq_true, if_false]
    rw [skipDown_none (fun n hn j hj => h n (.inl hn) j hj) (by simp)]
    rfl

theorem skipUp_none {hit : Nat → Nat → Option Bool} {ns : List Nat} {last c : Nat} : ∀ {len k : Nat},
    (∀ n ∈ ns, ∀ j, j ≤ last → hit n j = some false) → c + k ≤ last → skipUp hit ns last c (List.range' k len) = some none
  | 0, _, _, _ => rfl
  | len + 1, k, h, hk => by
    rw [List.range'_succ]
    unfold skipUp
    by_cases hc : c + k = last
    · rw [if_pos hc]
    · rw [if_neg hc, fifth_none fun n hn => h n hn _ (by omega)]
      simpa using skipUp_none (len := len) (k := k + 1) h (by omega)

theorem scanUp_none {hit : Nat → Nat → Option Bool} {ns : List Nat} {last fuel c pos : Nat} (hf : 0 < fuel) (hl : c ≤ last)
    (h : ∀ n, n ∈ ns ∨ n = pos → ∀ j, j ≤ last → hit n j = some false) : scanUp hit ns last fuel c pos = some c := by
  obtain ⟨f, rfl⟩ : ∃ f, fuel = f + 1 := ⟨fuel - 1, by omega⟩
  unfold scanUp
  by_cases hc : c = last
  · rw [if_pos hc, hc]
  · rw [if_neg hc, h pos (.inr rfl) (c + 1) (by omega)]
    simp only [Option.bind_eq_bind, Option.bind_some, Bool.false_eq_true, if_false]
    have := skipUp_none (hit := hit) (ns := ns) (last := last) (c := c) (len := 3) (k := 1) (fun n hn j hj => h n (.inl hn) j hj) (by omega)
    have e : List.range' 1 3 = [1, 2, 3] := rfl
    rw [e] at this
    rw [this]
    rfl

theorem flat_edges {x : Image} (h : Flat x) (hr : 4 ≤ x.rows) (hc : 4 ≤ x.cols) :
    ∃ b k, edges x = some (b, k) ∧ CutOk k (x.rows - 2) (x.cols - 2) ∧ k.r1 = k.r2 ∧ k.c1 = k.c2 := by
  obtain ⟨g, g1, g2, g3, g4⟩ := gradient_px (x := x) (by omega) (by omega)
  obtain ⟨b, th, b1, b2, b3, t1, t2, b4⟩ := binarize_px (g := g) (by omega) (by omega)
  have hb : ∀ i, i < b.rows → ∀ j, j < b.cols → b.read i j = some false := by
    intro i hi j hj
    rw [read_some hi hj, b4, g4 i (by omega) j (by omega)]
    congr 1
    rw [decide_eq_false_iff_not, not_le]
    have := flat_grad h (i := i) (j := j) (by omega) (by omega)
    have := low_threshold.2.2
    linarith
  have a1 := scanDown_none (hit := fun n c => b.read n c) (ns := rng (b.rows / 3) (b.rows * 2 / 3))
    (fuel := b.cols + 1) (c := b.cols / 2) (pos := b.rows / 3) (by omega) (by
      intro n hn j hj
      rw [mem_rng'] at hn
      exact hb n (by omega) j (by omega))
  have a2 := scanUp_none (hit := fun n c => b.read n c) (ns := rng (b.rows / 3) (b.rows * 2 / 3))
    (last := b.cols - 1) (fuel := b.cols + 1) (c := b.cols / 2) (pos := b.rows / 3) (by omega) (by omega) (by
      intro n hn j hj
      rw [mem_rng'] at hn
      exact hb n (by omega) j (by omega))
  have a3 := scanDown_none (hit := fun n r => b.read r n) (ns := rng (b.cols / 3) (b.cols * 2 / 3))
    (fuel := b.rows + 1) (c := b.rows / 2) (pos := b.cols / 3) (by omega) (by
      intro n hn j hj
      rw [mem_rng'] at hn
      exact hb j (by omega) n (by omega))
  have a4 := scanUp_none (hit := fun n r => b.read r n) (ns := rng (b.cols / 3) (b.cols * 2 / 3))
    (last := b.rows - 1) (fuel := b.rows + 1) (c := b.rows / 2) (pos := b.cols / 3) (by omega) (by omega) (by
      intro n hn j hj
      rw [mem_rng'] at hn
      exact hb j (by omega) n (by omega))
  have hk : cutOut b = some ⟨b.rows / 2, b.rows / 2, b.cols / 2, b.cols / 2, b.rows / 3, b.rows * 2 / 3, b.cols / 3, b.cols * 2 / 3⟩ := by
    unfold cutOut
    rw [if_neg (by omega)]
    simp only [a1, a2, a3, a4, Option.bind_eq_bind, Option.bind_some]
    rfl
  refine ⟨b, ⟨b.rows / 2, b.rows / 2, b.cols / 2, b.cols / 2, b.rows / 3, b.rows * 2 / 3, b.cols / 3, b.cols * 2 / 3⟩,
    by simp [edges, g1, b1, hk], ?_, rfl, rfl⟩
  rw [← g2, ← g3, ← b2, ← b3]
  constructor <;> simp <;> omega

theorem flat_narrow {x y : Image} (h : Flat x) (hy : narrow 3 x = some y) : Flat y := by
  obtain ⟨v, hv, hx⟩ := h
  have hval : ∀ i, i < x.rows / 3 → ∀ j, j < x.cols / 3 → (do
    let l ← ((rng (i * 3) ((i + 1) * 3)).flatMap fun a => (rng (j * 3) ((j + 1) * 3)).map fun b => (a, b)).mapM
      fun p => x.read p.1 p.2
    let a ← (sortQ (l.map fun v => v 0))[3 * 3 / 2]?
    let b ← (sortQ (l.map fun v => v 1))[3 * 3 / 2]?
    let c ← (sortQ (l.map fun v => v 2))[3 * 3 / 2]?
    return ![a, b, c] : Option (Fin 3 → ℚ)) = some v := by
    intro i hi j hj
    obtain ⟨m, hm, hl⟩ := mapM_some' (f := fun p : Nat × Nat => x.read p.1 p.2)
      (l := (rng (i * 3) ((i + 1) * 3)).flatMap fun a => (rng (j * 3) ((j + 1) * 3)).map fun b => (a, b)) (by
        intro p hp
        have := mem_square hp
        rw [read_some (by omega) (by omega)]
        rfl)
    have hall := mapM_all (P := fun u => u = v) hm (by
      intro p hp u hu
      have := mem_square hp
      rw [read_some (by omega) (by omega), hx _ (by omega) _ (by omega)] at hu
      exact (Option.some.inj hu).symm)
    rw [length_square, show (i + 1) * 3 - i * 3 = 3 by omega, show (j + 1) * 3 - j * 3 = 3 by omega] at hl
    have e : m = List.replicate 9 v := by
      rw [List.eq_replicate_iff]
      exact ⟨hl, hall⟩
    have es : ∀ q : ℚ, sortQ (List.replicate 9 q) = List.replicate 9 q := by
      intro q
      rw [List.eq_replicate_iff]
      exact ⟨by rw [length_sortQ, List.length_replicate], fun b hb => List.eq_of_mem_replicate (List.mem_mergeSort.mp hb)⟩
    simp only [hm, Option.bind_eq_bind, Option.bind_some, e, List.map_replicate, es]
    show some ![v 0, v 1, v 2] = some v
    congr 1
    funext k
    fin_cases k <;> rfl
  unfold narrow at hy
  obtain ⟨p, p1, p2, p3, p4⟩ := build_some (α := Fin 3 → ℚ) (rows := x.rows / 3) (cols := x.cols / 3) (f := fun i j => do
    let l ← ((rng (i * 3) ((i + 1) * 3)).flatMap fun a => (rng (j * 3) ((j + 1) * 3)).map fun b => (a, b)).mapM
      fun p => x.read p.1 p.2
    let a ← (sortQ (l.map fun v => v 0))[3 * 3 / 2]?
    let b ← (sortQ (l.map fun v => v 1))[3 * 3 / 2]?
    let c ← (sortQ (l.map fun v => v 2))[3 * 3 / 2]?
    return ![a, b, c]) (fun i hi j hj => by rw [hval i hi j hj]; rfl)
  rw [p1] at hy
  cases hy
  refine ⟨v, hv, fun i hi j hj => ?_⟩
  have := p4 i (by omega) j (by omega)
  rw [hval i (by omega) j (by omega)] at this
  exact (Option.some.inj this).symm

theorem flat_shrink : ∀ {fuel : Nat} {x : Image} {k : Cut}, x.rows < fuel → Flat x → 25 ≤ x.rows → 25 ≤ x.cols →
    CutOk k (x.rows - 2) (x.cols - 2) → k.r1 = k.r2 → ∃ y, shrink fuel x k (x.rows - 2) (x.cols - 2) = some (y, none)
  | 0, _, _, h, _, _, _, _, _ => by omega
  | fuel + 1, x, k, hf, hx, hr, hc, hk, e => by
    unfold shrink
    simp only [tooSmall_some hk, Option.bind_eq_bind, Option.bind_some]
    have ht : k.r2 - k.r1 ≤ (x.rows - 2) / 3 ∨ k.c2 - k.c1 ≤ (x.cols - 2) / 3 := .inl (by omega)
    obtain ⟨y, y1, y2, y3⟩ := narrow_some x
    have hy := flat_narrow hx y1
    obtain ⟨b, k', e1, e2, e3, e4⟩ := flat_edges hy (by omega) (by omega)
    simp only [ht, decide_true, if_true, y1, e1, Option.bind_some]
    by_cases hs : y.rows - 2 ≤ 64 ∨ y.cols - 2 ≤ 64
    · exact ⟨y, by rw [if_pos hs]; rfl⟩
    · rw [if_neg hs]
      exact flat_shrink (by omega) hy (by omega) (by omega) e2 e3

/-- a picture of one colour: nothing is found -/
theorem flat_posPixel {x : Image} (h : Flat x) (hr : 25 ≤ x.rows) (hc : 25 ≤ x.cols) : ∃ y, posPixel x = some (y, none) := by
  obtain ⟨b, k, e1, e2, e3, e4⟩ := flat_edges h (by omega) (by omega)
  obtain ⟨y, hy⟩ := flat_shrink (fuel := x.rows + 2) (by omega) h hr hc e2 e3
  refine ⟨y, ?_⟩
  unfold posPixel
  simp only [e1, hy, Option.bind_eq_bind, Option.bind_some]
  rfl

end Ms.Properties
