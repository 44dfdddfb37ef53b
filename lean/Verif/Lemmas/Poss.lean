import Verif.Model.Poss
import Verif.Lemmas.BigNumber
import Mathlib.Algebra.BigOperators.Group.List.Basic
import Mathlib.Algebra.BigOperators.Ring.List
import Mathlib.Algebra.Order.BigOperators.Group.List

/-! # `cal_possibility`: the numbers computed from the tables -/

namespace Ms

open BigNumber

theorem foldlM_value_add {α : Type} (f : BigNumber → α → Option BigNumber) (w : α → ℚ) : ∀ (l : List α),
    (∀ n, ∀ a ∈ l, ∃ m, f n a = some m ∧ m.value = n.value + w a) → ∀ n,
    ∃ m, l.foldlM f n = some m ∧ m.value = n.value + (l.map w).sum := by
  intro l
  induction l with
  | nil => intro _ n; exact ⟨n, rfl, by simp⟩
  | cons a l ih =>
    intro h n
    obtain ⟨m, h1, h2⟩ := h n a (by simp)
    obtain ⟨m', h3, h4⟩ := ih (fun n a ha => h n a (by simp [ha])) m
    refine ⟨m', ?_, ?_⟩
    · rw [List.foldlM_cons, h1]; exact h3
    · rw [h4, h2, List.map_cons, List.sum_cons]; ring

theorem foldlM_value_mul {α : Type} (f : BigNumber → α → Option BigNumber) (w : α → ℚ) : ∀ (l : List α),
    (∀ n, ∀ a ∈ l, ∃ m, f n a = some m ∧ m.value = n.value * w a) → ∀ n,
    ∃ m, l.foldlM f n = some m ∧ m.value = n.value * (l.map w).prod := by
  intro l
  induction l with
  | nil => intro _ n; exact ⟨n, rfl, by simp⟩
  | cons a l ih =>
    intro h n
    obtain ⟨m, h1, h2⟩ := h n a (by simp)
    obtain ⟨m', h3, h4⟩ := ih (fun n a ha => h n a (by simp [ha])) m
    refine ⟨m', ?_, ?_⟩
    · rw [List.foldlM_cons, h1]; exact h3
    · rw [h4, h2, List.map_cons, List.prod_cons]; ring

theorem value_zero' : (⟨0, 0⟩ : BigNumber).value = 0 := by simp [value]
theorem value_one' : (⟨1, 0⟩ : BigNumber).value = 1 := by simp [value]

/-- The product of the counts of the blocks other than `i`. -/
def othersProd (tabs : List (List EnumLine)) (s : List Nat) (i : Nat) : ℚ :=
  ((List.range tabs.length).map fun j => if i ≠ j then ((lineAt tabs j (s.getD j 0)).2.1 : ℚ) else 1).prod

theorem otherWays_spec (tabs : List (List EnumLine)) (s : List Nat) (i : Nat) :
    ∃ n, otherWays tabs s i = some n ∧ n.value = othersProd tabs s i := by
  obtain ⟨m, h1, h2⟩ := foldlM_value_mul
    (fun (n : BigNumber) j => if i ≠ j then n.mulUsize (lineAt tabs j (s.getD j 0)).2.1 else some n)
    (fun j => if i ≠ j then ((lineAt tabs j (s.getD j 0)).2.1 : ℚ) else 1) (List.range tabs.length) (by
      intro n j _
      by_cases h : i ≠ j
      · simp only [if_pos h]
        obtain ⟨m, h1, h2, -⟩ := mulUsize_spec n (lineAt tabs j (s.getD j 0)).2.1
        exact ⟨m, h1, h2⟩
      · simp only [if_neg h]
        exact ⟨n, rfl, by ring⟩) ⟨1, 0⟩
  exact ⟨m, h1, by rw [h2, value_one', one_mul]; rfl⟩

/-- The entry of `table_minenum_other`, as a number. -/
def entry (O : List (List BigNumber)) (i k : Nat) : ℚ := ((O.getD i []).getD k ⟨0, 0⟩).value

theorem addAt_spec (O : List (List BigNumber)) (i k : Nat) (v : BigNumber) (hi : i < O.length)
    (hk : k < (O.getD i []).length) :
    ∃ O', addAt O i k v = some O' ∧ O'.map List.length = O.map List.length ∧
      ∀ i' k', entry O' i' k' = entry O i' k' + if i' = i ∧ k' = k then v.value else 0 := by
  obtain ⟨x, h1, h2, -⟩ := add_spec ((O.getD i []).getD k ⟨0, 0⟩) v
  refine ⟨O.modify i fun l => l.set k x, by unfold addAt; rw [h1]; rfl, ?_, ?_⟩
  · apply List.ext_getElem
    · simp
    · intro n h3 h4
      simp only [List.length_map, List.length_modify] at h3
      simp only [List.getElem_map, List.getElem_modify]
      split <;> simp
  · intro i' k'
    unfold entry
    simp only [List.getD_eq_getElem?_getD, List.getElem?_modify] at h2 hk ⊢
    by_cases h : i' = i
    · subst h
      rw [List.getElem?_eq_getElem hi] at h2 hk ⊢
      simp only [Option.map_eq_map, Option.map_some, Option.getD_some, List.getElem?_set, if_true, true_and] at h2 hk ⊢
      by_cases hkk : k = k'
      · subst hkk
        rw [if_pos rfl, if_pos hk, if_pos rfl]
        exact h2
      · rw [if_neg hkk, if_neg (fun h => hkk h.symm)]; ring
    · rw [if_neg (fun h' => h h'.1)]
      have : ¬ i = i' := fun h' => h h'.symm
      simp [this]

/-- What one choice contributes to the entries of block `i` (`i = tabs.length`: the cells away from numbers). -/
def share (tabs : List (List EnumLine)) (ways : List BigNumber) (s : List Nat) (i : Nat) : ℚ :=
  if i = tabs.length then othersProd tabs s i
  else othersProd tabs s i * (ways.getD (s.getD tabs.length 0) ⟨0, 0⟩).value

/-- A choice whose indices are in range and whose leftover mines are found in `unk`. -/
structure ChoiceOK (tabs : List (List EnumLine)) (unk : List Nat) (m : Nat) (s : List Nat) : Prop where
  idx : ∀ j, j < tabs.length → s.getD j 0 < (tabs.getD j []).length
  last : s.getD tabs.length 0 < unk.length
  rest : restIndex tabs unk m s = some (s.getD tabs.length 0)

/-- The shape of `table_minenum_other`. -/
def otherShape (tabs : List (List EnumLine)) (unk : List Nat) : List Nat := tabs.map List.length ++ [unk.length]

theorem shape_get {tabs : List (List EnumLine)} {unk : List Nat} {O : List (List BigNumber)}
    (h : O.map List.length = otherShape tabs unk) :
    O.length = tabs.length + 1 ∧ (∀ i, i < tabs.length → (O.getD i []).length = (tabs.getD i []).length) ∧
      (O.getD tabs.length []).length = unk.length := by
  have hl : O.length = tabs.length + 1 := by
    have := congrArg List.length h
    simpa [otherShape] using this
  have hg : ∀ i, i < O.length → (O.getD i []).length = (otherShape tabs unk).getD i 0 := by
    intro i hi
    rw [← h]
    simp [List.getD_eq_getElem?_getD, List.getElem?_map, List.getElem?_eq_getElem hi]
  refine ⟨hl, fun i hi => ?_, ?_⟩
  · rw [hg i (by omega)]
    unfold otherShape
    simp [List.getD_eq_getElem?_getD, List.getElem?_append, hi]
  · rw [hg _ (by omega)]
    unfold otherShape
    simp [List.getD_eq_getElem?_getD, List.getElem?_append]

theorem otherChoice_spec {tabs : List (List EnumLine)} {unk : List Nat} (ways : List BigNumber) {m : Nat}
    {s : List Nat} (hs : ChoiceOK tabs unk m s) (O : List (List BigNumber))
    (hO : O.map List.length = otherShape tabs unk) :
    ∃ O', otherChoice tabs unk ways m O s = some O' ∧ O'.map List.length = otherShape tabs unk ∧
      ∀ i k, entry O' i k = entry O i k + if i ≤ tabs.length ∧ k = s.getD i 0 then share tabs ways s i else 0 := by
  have key : ∀ n, n ≤ tabs.length → ∃ O', (List.range n).foldlM (otherBlock tabs unk ways m s) O = some O' ∧
      O'.map List.length = otherShape tabs unk ∧
      ∀ i k, entry O' i k = entry O i k + if i < n ∧ k = s.getD i 0 then share tabs ways s i else 0 := by
    intro n
    induction n with
    | zero => intro _; exact ⟨O, rfl, hO, fun i k => by simp⟩
    | succ n ih =>
      intro hn
      obtain ⟨O1, h1, h2, h3⟩ := ih (by omega)
      obtain ⟨w, w1, w2⟩ := otherWays_spec tabs s n
      obtain ⟨v, v1, v2, -⟩ := mul_spec w (ways.getD (s.getD tabs.length 0) ⟨0, 0⟩)
      obtain ⟨l1, l2, l3⟩ := shape_get h2
      obtain ⟨O2, a1, a2, a3⟩ := addAt_spec O1 n (s.getD n 0) v (by omega)
        (by rw [l2 n (by omega)]; exact hs.idx n (by omega))
      refine ⟨O2, ?_, by rw [a2, h2], fun i k => ?_⟩
      · rw [List.range_succ, List.foldlM_append, h1]
        simp only [Option.bind_eq_bind, Option.bind_some, List.foldlM_cons, List.foldlM_nil, otherBlock, w1, hs.rest, v1, a1]
        rfl
      · rw [a3, h3]
        have hsh : share tabs ways s n = v.value := by
          unfold share
          rw [if_neg (by omega), v2, w2]
        by_cases h : i = n
        · subst h
          rw [if_neg (by omega)]
          by_cases hk : k = s.getD i 0
          · rw [if_pos ⟨rfl, hk⟩, if_pos ⟨by omega, hk⟩, hsh]; ring
          · rw [if_neg (fun h => hk h.2), if_neg (fun h => hk h.2)]; ring
        · rw [if_neg (fun h' : i = n ∧ _ => h h'.1)]
          have : (i < n + 1 ∧ k = s.getD i 0) ↔ (i < n ∧ k = s.getD i 0) := by
            constructor
            · rintro ⟨h1, h2⟩; exact ⟨by omega, h2⟩
            · rintro ⟨h1, h2⟩; exact ⟨by omega, h2⟩
          simp only [this]; ring
  obtain ⟨O1, h1, h2, h3⟩ := key tabs.length le_rfl
  obtain ⟨w, w1, w2⟩ := otherWays_spec tabs s tabs.length
  obtain ⟨l1, l2, l3⟩ := shape_get h2
  obtain ⟨O2, a1, a2, a3⟩ := addAt_spec O1 tabs.length (s.getD tabs.length 0) w (by omega) (by rw [l3]; exact hs.last)
  refine ⟨O2, ?_, by rw [a2, h2], fun i k => ?_⟩
  · unfold otherChoice
    rw [h1]
    simp only [Option.bind_eq_bind, Option.bind_some, w1, hs.rest, a1]
  · rw [a3, h3]
    have hsh : share tabs ways s tabs.length = w.value := by
      unfold share
      rw [if_pos rfl, w2]
    by_cases h : i = tabs.length
    · subst h
      rw [if_neg (by omega)]
      by_cases hk : k = s.getD tabs.length 0
      · rw [if_pos ⟨rfl, hk⟩, if_pos ⟨le_rfl, hk⟩, hsh]; ring
      · rw [if_neg (fun h => hk h.2), if_neg (fun h => hk h.2)]; ring
    · rw [if_neg (fun h' : i = tabs.length ∧ _ => h h'.1)]
      have : (i ≤ tabs.length ∧ k = s.getD i 0) ↔ (i < tabs.length ∧ k = s.getD i 0) := by
        constructor
        · rintro ⟨h1, h2⟩; exact ⟨by omega, h2⟩
        · rintro ⟨h1, h2⟩; exact ⟨by omega, h2⟩
      simp only [this]; ring

theorem possOther_spec {tabs : List (List EnumLine)} {unk : List Nat} (ways : List BigNumber) {m : Nat}
    (hc : ∀ s ∈ possChoices tabs unk m, ChoiceOK tabs unk m s) :
    ∃ O, possOther tabs unk ways m = some O ∧ O.map List.length = otherShape tabs unk ∧
      ∀ i k, i ≤ tabs.length → entry O i k =
        ((possChoices tabs unk m).map fun s => if k = s.getD i 0 then share tabs ways s i else 0).sum := by
  have key : ∀ (L : List (List Nat)), (∀ s ∈ L, ChoiceOK tabs unk m s) → ∀ O : List (List BigNumber),
      O.map List.length = otherShape tabs unk →
      ∃ O', L.foldlM (otherChoice tabs unk ways m) O = some O' ∧ O'.map List.length = otherShape tabs unk ∧
      ∀ i k, i ≤ tabs.length → entry O' i k = entry O i k +
        (L.map fun s => if k = s.getD i 0 then share tabs ways s i else 0).sum := by
    intro L
    induction L with
    | nil => intro _ O hO; exact ⟨O, rfl, hO, fun i k _ => by simp⟩
    | cons s L ih =>
      intro hL O hO
      obtain ⟨O1, h1, h2, h3⟩ := otherChoice_spec ways (hL s (by simp)) O hO
      obtain ⟨O2, h4, h5, h6⟩ := ih (fun t ht => hL t (by simp [ht])) O1 h2
      refine ⟨O2, ?_, h5, fun i k hi => ?_⟩
      · rw [List.foldlM_cons, h1]; exact h4
      · rw [h6 i k hi, h3, List.map_cons, List.sum_cons]
        simp only [hi, true_and]
        ring
  obtain ⟨O, h1, h2, h3⟩ := key (possChoices tabs unk m) hc
    ((tabs.map fun t => List.replicate t.length (⟨0, 0⟩ : BigNumber)) ++ [List.replicate unk.length ⟨0, 0⟩])
    (by simp [otherShape, Function.comp_def])
  refine ⟨O, h1, h2, fun i k hi => ?_⟩
  rw [h3 i k hi]
  have : entry ((tabs.map fun t => List.replicate t.length (⟨0, 0⟩ : BigNumber)) ++ [List.replicate unk.length ⟨0, 0⟩]) i k = 0 := by
    unfold entry
    have hz : ∀ n, (List.replicate n (⟨0, 0⟩ : BigNumber)).getD k ⟨0, 0⟩ = ⟨0, 0⟩ := by
      intro n
      rw [List.getD_eq_getElem?_getD, List.getElem?_replicate]
      split <;> rfl
    rw [show ∀ (l : List (List BigNumber)), l.getD i [] = l[i]?.getD [] from fun l => List.getD_eq_getElem?_getD ..,
      List.getElem?_append]
    split
    · rename_i h
      rw [List.getElem?_map, List.getElem?_eq_getElem (by simpa using h)]
      simp only [Option.map_some, Option.getD_some, hz, value_zero']
    · simp only [List.length_map]
      rw [List.getElem?_cons]
      split
      · simp only [Option.getD_some, hz, value_zero']
      · simp [value_zero']
  rw [this, zero_add]

/-- Exchange of summations. -/
theorem sum_swap {α : Type} (L : List α) (f : Nat → α → ℚ) (n : Nat) :
    ((List.range n).map fun k => (L.map fun s => f k s).sum).sum =
      (L.map fun s => ((List.range n).map fun k => f k s).sum).sum := by
  induction L with
  | nil => simp
  | cons s L ih =>
    simp only [List.map_cons, List.sum_cons]
    rw [← ih, ← List.sum_map_add]

theorem sum_range_single (n k : Nat) (hk : k < n) (f : Nat → ℚ) :
    ((List.range n).map fun i => if i = k then f i else 0).sum = f k := by
  induction n with
  | zero => omega
  | succ n ih =>
    rw [List.range_succ, List.map_append, List.sum_append]
    by_cases h : k < n
    · rw [ih h]; simp [show n ≠ k by omega]
    · have : k = n := by omega
      subst this
      have : ((List.range k).map fun i => if i = k then f i else 0).sum = 0 := by
        apply List.sum_eq_zero
        intro x hx
        obtain ⟨i, hi, rfl⟩ := List.mem_map.mp hx
        rw [List.mem_range] at hi
        rw [if_neg (by omega)]
      rw [this]; simp

theorem weighted_entries {tabs : List (List EnumLine)} {unk : List Nat} {ways : List BigNumber} {m : Nat}
    {O : List (List BigNumber)} {i n : Nat} (g : Nat → ℚ)
    (hO : ∀ k, entry O i k = ((possChoices tabs unk m).map fun s => if k = s.getD i 0 then share tabs ways s i else 0).sum)
    (hn : ∀ s ∈ possChoices tabs unk m, s.getD i 0 < n) :
    ((List.range n).map fun k => entry O i k * g k).sum =
      ((possChoices tabs unk m).map fun s => share tabs ways s i * g (s.getD i 0)).sum := by
  have : ((List.range n).map fun k => entry O i k * g k) =
      (List.range n).map fun k => ((possChoices tabs unk m).map fun s =>
        if k = s.getD i 0 then share tabs ways s i * g k else 0).sum := by
    apply List.map_congr_left
    intro k _
    rw [hO, ← List.sum_map_mul_right]
    congr 1
    apply List.map_congr_left
    intro s _
    split <;> simp
  rw [this, sum_swap]
  congr 1
  apply List.map_congr_left
  intro s hs
  exact sum_range_single n _ (hn s hs) fun k => share tabs ways s i * g k

/-- The product of all the counts of a choice. -/
def allProd (tabs : List (List EnumLine)) (s : List Nat) : ℚ :=
  ((List.range tabs.length).map fun j => ((lineAt tabs j (s.getD j 0)).2.1 : ℚ)).prod

theorem othersProd_all (tabs : List (List EnumLine)) (s : List Nat) : othersProd tabs s tabs.length = allProd tabs s := by
  unfold othersProd allProd
  congr 1
  apply List.map_congr_left
  intro j hj
  rw [List.mem_range] at hj
  rw [if_pos (by omega)]

theorem possAll_spec {tabs : List (List EnumLine)} {unk : List Nat} {ways : List BigNumber} {m : Nat}
    {O : List (List BigNumber)} (hw : ways.length = unk.length)
    (hc : ∀ s ∈ possChoices tabs unk m, ChoiceOK tabs unk m s)
    (hO : ∀ i k, i ≤ tabs.length → entry O i k =
        ((possChoices tabs unk m).map fun s => if k = s.getD i 0 then share tabs ways s i else 0).sum) :
    ∃ T, possAll tabs ways O = some T ∧ T.value = ((possChoices tabs unk m).map fun s =>
      allProd tabs s * (ways.getD (s.getD tabs.length 0) ⟨0, 0⟩).value).sum := by
  obtain ⟨T, h1, h2⟩ := foldlM_value_add (fun (T : BigNumber) i => do
    let t ← ((O.getD tabs.length []).getD i ⟨0, 0⟩).mul (ways.getD i ⟨0, 0⟩)
    T.add t) (fun k => entry O tabs.length k * (ways.getD k ⟨0, 0⟩).value) (List.range ways.length) (by
      intro n k _
      obtain ⟨v, v1, v2, -⟩ := mul_spec ((O.getD tabs.length []).getD k ⟨0, 0⟩) (ways.getD k ⟨0, 0⟩)
      obtain ⟨w, w1, w2, -⟩ := add_spec n v
      exact ⟨w, by simp only [Option.bind_eq_bind, v1, Option.bind_some, w1], by rw [w2, v2]; rfl⟩) ⟨0, 0⟩
  refine ⟨T, h1, ?_⟩
  rw [h2, value_zero', zero_add, weighted_entries (n := ways.length) (fun k => (ways.getD k ⟨0, 0⟩).value)
    (fun k => hO _ k le_rfl) (fun s hs => by rw [hw]; exact (hc s hs).last)]
  congr 1
  apply List.map_congr_left
  intro s _
  unfold share
  rw [if_pos rfl, othersProd_all]

theorem possRest_spec {tabs : List (List EnumLine)} {unk : List Nat} {ways : List BigNumber} {m : Nat}
    {O : List (List BigNumber)}
    (hc : ∀ s ∈ possChoices tabs unk m, ChoiceOK tabs unk m s)
    (hO : ∀ i k, i ≤ tabs.length → entry O i k =
        ((possChoices tabs unk m).map fun s => if k = s.getD i 0 then share tabs ways s i else 0).sum) :
    ∃ T, possRest tabs unk ways O = some T ∧ T.value = ((possChoices tabs unk m).map fun s =>
      allProd tabs s * ((ways.getD (s.getD tabs.length 0) ⟨0, 0⟩).value * unk.getD (s.getD tabs.length 0) 0)).sum := by
  obtain ⟨T, h1, h2⟩ := foldlM_value_add (fun (n : BigNumber) i => do
    let u ← ((O.getD tabs.length []).getD i ⟨0, 0⟩).mul (ways.getD i ⟨0, 0⟩)
    let u ← u.mulUsize (unk.getD i 0)
    n.add u) (fun k => entry O tabs.length k * ((ways.getD k ⟨0, 0⟩).value * unk.getD k 0)) (List.range unk.length) (by
      intro n k _
      obtain ⟨v, v1, v2, -⟩ := mul_spec ((O.getD tabs.length []).getD k ⟨0, 0⟩) (ways.getD k ⟨0, 0⟩)
      obtain ⟨u, u1, u2, -⟩ := mulUsize_spec v (unk.getD k 0)
      obtain ⟨w, w1, w2, -⟩ := add_spec n u
      exact ⟨w, by simp only [Option.bind_eq_bind, v1, u1, Option.bind_some, w1], by
        rw [w2, u2, v2]; unfold entry; ring⟩) ⟨0, 0⟩
  refine ⟨T, h1, ?_⟩
  rw [h2, value_zero', zero_add, weighted_entries (n := unk.length)
    (fun k => (ways.getD k ⟨0, 0⟩).value * unk.getD k 0)
    (fun k => hO _ k le_rfl) (fun s hs => (hc s hs).last)]
  congr 1
  apply List.map_congr_left
  intro s _
  unfold share
  rw [if_pos rfl, othersProd_all]

theorem possCell_spec {tabs : List (List EnumLine)} {unk : List Nat} {ways : List BigNumber} {m : Nat}
    {O : List (List BigNumber)}
    (hs : O.map List.length = otherShape tabs unk)
    (hc : ∀ s ∈ possChoices tabs unk m, ChoiceOK tabs unk m s)
    (hO : ∀ i k, i ≤ tabs.length → entry O i k =
        ((possChoices tabs unk m).map fun s => if k = s.getD i 0 then share tabs ways s i else 0).sum)
    {i : Nat} (hi : i < tabs.length) (c : Nat) :
    ∃ T, possCell tabs O i c = some T ∧ T.value = ((possChoices tabs unk m).map fun s =>
      othersProd tabs s i * ((lineAt tabs i (s.getD i 0)).2.2.getD c 0 : Nat) *
        (ways.getD (s.getD tabs.length 0) ⟨0, 0⟩).value).sum := by
  obtain ⟨T, h1, h2⟩ := foldlM_value_add (fun (n : BigNumber) k => do
    let o ← ((O.getD i []).getD k ⟨0, 0⟩).mulUsize ((lineAt tabs i k).2.2.getD c 0)
    n.add o) (fun k => entry O i k * ((lineAt tabs i k).2.2.getD c 0 : Nat)) (List.range (O.getD i []).length) (by
      intro n k _
      obtain ⟨u, u1, u2, -⟩ := mulUsize_spec ((O.getD i []).getD k ⟨0, 0⟩) ((lineAt tabs i k).2.2.getD c 0)
      obtain ⟨w, w1, w2, -⟩ := add_spec n u
      exact ⟨w, by simp only [Option.bind_eq_bind, u1, Option.bind_some, w1], by
        rw [w2, u2]; unfold entry; ring⟩) ⟨0, 0⟩
  refine ⟨T, h1, ?_⟩
  rw [h2, value_zero', zero_add, weighted_entries
    (fun k => ((lineAt tabs i k).2.2.getD c 0 : Nat))
    (fun k => hO _ k (by omega)) (fun s hs' => by
      rw [(shape_get hs).2.1 i hi]; exact (hc s hs').idx i hi)]
  congr 1
  apply List.map_congr_left
  intro s _
  unfold share
  rw [if_neg (by omega)]
  ring

end Ms
