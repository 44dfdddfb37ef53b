import Verif.Model.Word
import Verif.Lemmas.EnumExact
import Mathlib.Data.Nat.Choose.Sum
import Mathlib.Tactic.FinCases

namespace Ms

/-! ## Machine words: when nothing wraps -/

theorem total_eq' (B : Block) : ((combine B).groups.map List.length).sum = B.x.length := by
  have h : (combine B).groups = (reps B).map (grp B) := by
    show (delCells B).foldl (fun l k => l.eraseIdx k) (pairCells B) = (reps B).map (grp B)
    rw [keepIf_reps [] B _ (by simp [pairCells])]
    apply List.map_congr_left
    intro i hi
    have hi := (mem_reps.mp hi).1
    unfold pairCells
    rw [List.getD_eq_getElem?_getD, List.getElem?_map, List.getElem?_range hi]
    rfl
  rw [h, ← List.length_flatten, (groups_perm B).length_eq, List.length_range]

theorem modify_congr' {α : Type} {f g : α → α} {i : Nat} : ∀ {l : List α}, (∀ v, l[i]? = some v → f v = g v) →
    l.modify i f = l.modify i g := by
  intro l h
  apply List.ext_getElem?
  intro k
  rw [List.getElem?_modify, List.getElem?_modify]
  by_cases hk : i = k
  · subst hk
    cases hv : l[i]? with
    | none => rfl
    | some v => simp [h v hv]
  · simp [hk]

theorem sum_modify_add (a : Nat) : ∀ (l : List Nat) (i : Nat), i < l.length →
    (l.modify i fun v => v + a).sum = l.sum + a := by
  intro l
  induction l with
  | nil => intro i h; simp at h
  | cons x l ih =>
    intro i h
    cases i with
    | zero => simp; omega
    | succ i =>
      have := ih i (by simpa using h)
      simp only [List.modify_succ_cons, List.sum_cons, this]
      omega

theorem le_sum_of_getElem? {l : List Nat} {i v : Nat} (h : l[i]? = some v) : v ≤ l.sum :=
  List.le_sum_of_mem (List.mem_of_getElem? h)

/-- The tables are consistent: no cell is counted more often than its line. -/
def TabOK (T : Tables) : Prop := ∀ s i, (T.2.getD s []).getD i 0 ≤ T.1.getD s 0

theorem div_le_self' {a n l : Nat} (h : n ≤ l) : a * n / l ≤ a := by
  rcases Nat.eq_zero_or_pos l with h0 | h0
  · subst h0; simp
  · exact Nat.div_le_of_le_mul (by rw [Nat.mul_comm l a]; exact Nat.mul_le_mul_left _ h)

theorem enumLeafW_eq {M : Nat} {q : Squeezed} {amount : Nat} {mv : List Nat} {T : Tables}
    (hM : 8 * (T.1.sum + amount) < M) (hT : TabOK T)
    (hmv : amount = 0 ∨ ∀ i, mv.getD i 0 ≤ q.len i ∧ mv.getD i 0 ≤ 8) :
    enumLeafW M q amount mv T = enumLeaf q amount mv T := by
  unfold enumLeafW enumLeaf
  split
  · rfl
  · rename_i hs
    congr 2
    · apply modify_congr'
      intro v hv
      have := le_sum_of_getElem? hv
      exact Nat.mod_eq_of_lt (by omega)
    · apply modify_congr'
      intro row hrow
      apply List.ext_getElem?
      intro i
      rw [List.getElem?_mapIdx, List.getElem?_mapIdx]
      cases hi : row[i]? with
      | none => rfl
      | some v =>
        have h1 := hT mv.sum i
        have h2 : T.1.getD mv.sum 0 ≤ T.1.sum := by
          rw [List.getD_eq_getElem?_getD]
          cases h : T.1[mv.sum]? with
          | none => simp
          | some w => exact le_sum_of_getElem? h
        rw [List.getD_eq_getElem?_getD (l := T.2), hrow, Option.getD_some, List.getD_eq_getElem?_getD, hi,
          Option.getD_some] at h1
        have h5 : amount * mv.getD i 0 ≤ amount * 8 := by
          rcases hmv with rfl | hmv
          · simp
          · exact Nat.mul_le_mul_left _ (hmv i).2
        have h6 : amount * mv.getD i 0 / q.len i ≤ amount := by
          rcases hmv with rfl | hmv
          · simp
          · exact div_le_self' (hmv i).1
        simp only [Option.map_some]
        rw [Nat.mod_eq_of_lt (a := amount * mv.getD i 0) (by omega), Nat.mod_eq_of_lt (by omega)]

theorem enumLeaf_bound {q : Squeezed} {amount : Nat} {mv : List Nat} {T T' : Tables} (hT : TabOK T)
    (hmv : amount = 0 ∨ ∀ i, mv.getD i 0 ≤ q.len i ∧ mv.getD i 0 ≤ 8) (h : enumLeaf q amount mv T = .ok T') :
    T'.1.sum = T.1.sum + amount ∧ TabOK T' := by
  unfold enumLeaf at h
  split at h
  · exact absurd h (by simp)
  · rename_i hs
    cases h
    refine ⟨sum_modify_add amount _ _ (by omega), ?_⟩
    intro s i
    have h1 := hT s i
    simp only [List.getD_eq_getElem?_getD, List.getElem?_modify] at h1 ⊢
    by_cases hk : mv.sum = s
    · subst hk
      have hl : mv.sum < T.1.length := by omega
      rw [List.getElem?_eq_getElem hl] at h1 ⊢
      simp only [if_true, Option.map_some, Option.getD_some, Option.map_eq_map] at h1 ⊢
      cases hrow : T.2[mv.sum]? with
      | none => simp
      | some row =>
        rw [hrow] at h1
        simp only [Option.map_some, Option.getD_some, List.getElem?_mapIdx] at h1 ⊢
        cases hv : row[i]? with
        | none => simp
        | some v =>
          rw [hv] at h1
          simp only [Option.map_some, Option.getD_some] at h1 ⊢
          have h6 : amount * mv.getD i 0 / q.len i ≤ amount := by
            rcases hmv with rfl | hmv
            · simp
            · exact div_le_self' (hmv i).1
          simp only [List.getD_eq_getElem?_getD] at h6
          omega
    · simpa [hk] using h1

/-- What `C_query` returns, 0 for a panic. -/
def cq (n u : Nat) : Nat := (cQuery n u).getD 0

theorem cQuery_some {n u c : Nat} (h : cQuery n u = some c) : n ≤ 8 ∧ u ≤ 8 ∧ c = n.choose u := by
  have h1 : n ≤ 8 := by
    by_contra hn
    unfold cQuery at h
    rw [List.getElem?_eq_none (by simp; omega)] at h
    simp at h
  have h2 : u ≤ 8 := by
    by_contra hu
    have : ∀ n ∈ List.range 9, ∀ r, (([[1, 0, 0, 0, 0, 0, 0, 0, 0], [1, 1, 0, 0, 0, 0, 0, 0, 0],
     [1, 2, 1, 0, 0, 0, 0, 0, 0],
     [1, 3, 3, 1, 0, 0, 0, 0, 0], [1, 4, 6, 4, 1, 0, 0, 0, 0], [1, 5, 10, 10, 5, 1, 0, 0, 0],
     [1, 6, 15, 20, 15, 6, 1, 0, 0], [1, 7, 21, 35, 35, 21, 7, 1, 0],
     [1, 8, 28, 56, 70, 56, 28, 8, 1]] : List (List Nat))[n]?) = some r → r.length = 9 := by
      intro n hn r hr
      have := List.mem_of_getElem? hr
      fin_cases this <;> rfl
    unfold cQuery at h
    obtain ⟨r, hr, hc⟩ := Option.bind_eq_some_iff.mp h
    have hl := this n (List.mem_range.mpr (by omega)) r hr
    rw [List.getElem?_eq_none (by omega)] at hc
    exact absurd hc (by simp)
  refine ⟨h1, h2, ?_⟩
  rw [cQuery_choose h1 h2] at h
  exact (Option.some.inj h).symm

theorem cq_le (n u : Nat) : cq n u ≤ n.choose u := by
  unfold cq
  cases h : cQuery n u with
  | none => simp
  | some c => rw [(cQuery_some h).2.2]; exact Nat.le_refl _

theorem cq_sum (n lo hi : Nat) : ((rng lo hi).map (cq n)).sum ≤ 2 ^ n := by
  rw [← Nat.sum_range_choose n]
  have h1 : ((rng lo hi).map (cq n)).sum ≤ ((rng lo hi).map (n.choose ·)).sum :=
    List.sum_le_sum fun u _ => cq_le n u
  refine h1.trans ?_
  have h2 : ((rng lo hi).map (n.choose ·)).sum = ∑ u ∈ (rng lo hi).toFinset, n.choose u := by
    rw [List.sum_toFinset _ (nodup_rng _ _)]
  rw [h2, ← Finset.sum_filter_add_sum_filter_not _ (fun u => u ≤ n)]
  have h3 : ∑ u ∈ (rng lo hi).toFinset with ¬ u ≤ n, n.choose u = 0 := by
    apply Finset.sum_eq_zero
    intro u hu
    exact Nat.choose_eq_zero_of_lt (by have := (Finset.mem_filter.mp hu).2; omega)
  rw [h3, Nat.add_zero]
  apply Finset.sum_le_sum_of_subset
  intro u hu
  have := (Finset.mem_filter.mp hu).2
  simp only [Finset.mem_range]
  omega

theorem cq_sum_range (n : Nat) (lu : Int × Int) : ((enumRange lu).map (cq n)).sum ≤ 2 ^ n := by
  unfold enumRange
  split <;> exact cq_sum _ _ _

theorem set_bound {q : Squeezed} {mv : List Nat} {idx u : Nat} (hmv : ∀ i, mv.getD i 0 ≤ q.len i ∧ mv.getD i 0 ≤ 8)
    (h1 : u ≤ q.len idx) (h2 : u ≤ 8) (i : Nat) :
    (mv.set idx u).getD i 0 ≤ q.len i ∧ (mv.set idx u).getD i 0 ≤ 8 := by
  have := hmv i
  simp only [List.getD_eq_getElem?_getD, List.getElem?_set] at this ⊢
  by_cases hk : idx = i
  · subst hk
    by_cases hl : idx < mv.length
    · simp [hl, h1, h2]
    · simp [hl]
  · simpa [hk] using this

theorem lensFrom_succ' (q : Squeezed) (i r : Nat) :
    (lensFrom q i (r + 1)).sum = q.len i + (lensFrom q (i + 1) r).sum := by
  simp [lensFrom, List.range'_succ]

theorem enumStepW_eq {M : Nat} (q : Squeezed) : ∀ (r idx amount : Nat) (brem : List Int) (mv : List Nat) (T : Tables),
    8 * (T.1.sum + amount * 2 ^ (lensFrom q idx r).sum) < M → TabOK T →
    (amount = 0 ∨ ∀ i, mv.getD i 0 ≤ q.len i ∧ mv.getD i 0 ≤ 8) →
    enumStepW M q r idx amount brem mv T = enumStep q r idx amount brem mv T ∧
    ∀ T', enumStep q r idx amount brem mv T = .ok T' →
      T'.1.sum ≤ T.1.sum + amount * 2 ^ (lensFrom q idx r).sum ∧ TabOK T' := by
  intro r
  induction r with
  | zero =>
    intro idx amount brem mv T hM hT hmv
    have hM' : 8 * (T.1.sum + amount) < M := by simpa [lensFrom] using hM
    rw [enumStepW, enumStep]
    refine ⟨enumLeafW_eq hM' hT hmv, fun T' h => ?_⟩
    obtain ⟨h1, h2⟩ := enumLeaf_bound hT hmv h
    exact ⟨by simp [lensFrom, h1], h2⟩
  | succ r ih =>
    intro idx amount brem mv T hM hT hmv
    rw [enumStepW, enumStep]
    by_cases hlu : (enumLimits q idx brem).2 = -1
    · rw [if_pos hlu, if_pos hlu]
      exact ⟨rfl, fun T' h => absurd h (by simp)⟩
    rw [if_neg hlu, if_neg hlu]
    have hsum := cq_sum_range (q.len idx) (enumLimits q idx brem)
    rw [lensFrom_succ', Nat.pow_add] at hM ⊢
    generalize hL : 2 ^ (lensFrom q (idx + 1) r).sum = L at *
    generalize enumRange (enumLimits q idx brem) = us at *
    suffices H : ∀ (us : List Nat) (T : Tables), TabOK T →
        8 * (T.1.sum + amount * ((us.map (cq (q.len idx))).sum * L)) < M →
        us.foldlM (fun T u => do
            let c ← cQueryE (q.len idx) u
            enumStepW M q r (idx + 1) (amount * c % M) (bremSub q idx u brem) (mv.set idx u) T) T =
          us.foldlM (fun T u => do
            let c ← cQueryE (q.len idx) u
            enumStep q r (idx + 1) (amount * c) (bremSub q idx u brem) (mv.set idx u) T) T ∧
        ∀ T', us.foldlM (fun T u => do
            let c ← cQueryE (q.len idx) u
            enumStep q r (idx + 1) (amount * c) (bremSub q idx u brem) (mv.set idx u) T) T = .ok T' →
          T'.1.sum ≤ T.1.sum + amount * ((us.map (cq (q.len idx))).sum * L) ∧ TabOK T' by
      have hle2 : amount * ((us.map (cq (q.len idx))).sum * L) ≤ amount * (2 ^ q.len idx * L) :=
        Nat.mul_le_mul_left _ (Nat.mul_le_mul_right _ hsum)
      obtain ⟨h1, h2⟩ := H us T hT (by omega)
      refine ⟨h1, fun T' h => ?_⟩
      obtain ⟨h3, h4⟩ := h2 T' h
      exact ⟨by omega, h4⟩
    intro us
    induction us with
    | nil =>
      intro T hT _
      refine ⟨rfl, fun T' h => ?_⟩
      cases h
      exact ⟨by simp, hT⟩
    | cons u us ihu =>
      intro T hT hM
      rw [List.foldlM_cons, List.foldlM_cons]
      cases hc : cQuery (q.len idx) u with
      | none =>
        have hE : cQueryE (q.len idx) u = .error .panic := by rw [cQueryE, hc]
        rw [hE]
        exact ⟨rfl, fun T' h => absurd h (by simp [bind, Except.bind])⟩
      | some c =>
        have hE : cQueryE (q.len idx) u = .ok c := by rw [cQueryE, hc]
        obtain ⟨c1, c2, c3⟩ := cQuery_some hc
        have hcq : cq (q.len idx) u = c := by simp [cq, hc]
        have hLpos : 1 ≤ L := by rw [← hL]; exact Nat.one_le_two_pow
        rw [List.map_cons, List.sum_cons, hcq] at hM ⊢
        have hexp : amount * ((c + (us.map (cq (q.len idx))).sum) * L) =
            amount * c * L + amount * ((us.map (cq (q.len idx))).sum * L) := by ring
        rw [hexp] at hM ⊢
        have hac : amount * c ≤ amount * c * L := Nat.le_mul_of_pos_right _ hLpos
        have hmod : amount * c % M = amount * c := Nat.mod_eq_of_lt (by omega)
        simp only [hE, Except.bind_eq_ok, hmod]
        obtain ⟨h1, h2⟩ := ih (idx + 1) (amount * c) (bremSub q idx u brem) (mv.set idx u) T
          (by rw [hL]; omega) hT (by
            rcases hmv with rfl | hmv
            · left; simp
            · by_cases hu : u ≤ q.len idx
              · exact .inr fun i => set_bound hmv hu c2 i
              · left
                rw [c3, Nat.choose_eq_zero_of_lt (by omega), Nat.mul_zero])
        rw [h1]
        cases hs : enumStep q r (idx + 1) (amount * c) (bremSub q idx u brem) (mv.set idx u) T with
        | error e => exact ⟨rfl, fun T' h => absurd h (by simp [bind, Except.bind])⟩
        | ok T1 =>
          obtain ⟨h3, h4⟩ := h2 T1 hs
          rw [hL] at h3
          simp only [Except.bind_eq_ok]
          obtain ⟨h5, h6⟩ := ihu T1 h4 (by omega)
          refine ⟨h5, fun T' h => ?_⟩
          obtain ⟨h7, h8⟩ := h6 T' h
          exact ⟨by omega, h8⟩

theorem sum_replicate_zero (n : Nat) : (List.replicate n 0).sum = 0 := by simp

theorem lensFrom_le (q : Squeezed) (n : Nat) : (lensFrom q 0 n).sum ≤ (q.groups.map List.length).sum := by
  have h : ∀ n, (lensFrom q 0 n).sum = ((q.groups.map List.length).take n).sum := by
    intro n
    induction n with
    | zero => simp [lensFrom]
    | succ n ih =>
      have h1 : (lensFrom q 0 (n + 1)).sum = (lensFrom q 0 n).sum + q.len n := by
        simp [lensFrom, List.range'_1_concat]
      rw [h1, ih, List.take_add_one, List.sum_append]
      congr 1
      unfold Squeezed.len
      rw [List.getD_eq_getElem?_getD, List.getElem?_map]
      cases q.groups[n]? <;> simp
  rw [h]
  exact (List.take_sublist _ _).sum_le_sum (by simp)

theorem enumTableW_eq {M : Nat} {q : Squeezed} (h : 8 * 2 ^ (q.groups.map List.length).sum < M) :
    enumTableW M q = enumTable q := by
  unfold enumTableW enumTable
  split
  · rfl
  split
  · rfl
  have hz : ∀ (n i : Nat), (List.replicate n (0 : Nat)).getD i 0 = 0 := by
    intro n i
    rw [List.getD_eq_getElem?_getD, List.getElem?_replicate]
    split <;> rfl
  have hle : 2 ^ (lensFrom q 0 q.cellsNum).sum ≤ 2 ^ (q.groups.map List.length).sum :=
    Nat.pow_le_pow_right (by omega) (lensFrom_le q _)
  obtain ⟨h1, _⟩ := enumStepW_eq (M := M) q q.cellsNum 0 1 (q.rows.map (·.2)) (List.replicate q.x.length 0)
    (List.replicate ((q.groups.map List.length).sum + 1) 0,
      List.replicate ((q.groups.map List.length).sum + 1) (List.replicate q.x.length 0))
    (by rw [sum_replicate_zero]; omega)
    (by
      intro s i
      simp only
      rw [List.getD_eq_getElem?_getD (l := List.replicate _ (List.replicate _ 0)), List.getElem?_replicate]
      split
      · rw [Option.getD_some, hz]; omega
      · simp)
    (by right; intro i; rw [hz]; omega)
  simp only
  rw [h1]
  rfl

theorem enumTable_lines {q : Squeezed} {lines : List EnumLine} (h : enumTable q = some (.ok lines)) :
    (lines.map fun l => l.2.1).sum ≤ 2 ^ (q.groups.map List.length).sum ∧
    ∀ l ∈ lines, ∀ j, l.2.2.getD j 0 ≤ l.2.1 := by
  unfold enumTable at h
  split at h
  · simp at h
  split at h
  · simp at h
  have hz : ∀ (n i : Nat), (List.replicate n (0 : Nat)).getD i 0 = 0 := by
    intro n i
    rw [List.getD_eq_getElem?_getD, List.getElem?_replicate]
    split <;> rfl
  have hle : 2 ^ (lensFrom q 0 q.cellsNum).sum ≤ 2 ^ (q.groups.map List.length).sum :=
    Nat.pow_le_pow_right (by omega) (lensFrom_le q _)
  obtain ⟨_, h2⟩ := enumStepW_eq (M := 8 * 2 ^ (q.groups.map List.length).sum + 1) q q.cellsNum 0 1 (q.rows.map (·.2))
    (List.replicate q.x.length 0)
    (List.replicate ((q.groups.map List.length).sum + 1) 0,
      List.replicate ((q.groups.map List.length).sum + 1) (List.replicate q.x.length 0))
    (by rw [sum_replicate_zero]; omega)
    (by
      intro s i
      simp only
      rw [List.getD_eq_getElem?_getD (l := List.replicate _ (List.replicate _ 0)), List.getElem?_replicate]
      split
      · rw [Option.getD_some, hz]; omega
      · simp)
    (by right; intro i; rw [hz]; omega)
  simp only at h
  cases hs : enumStep q q.cellsNum 0 1 (q.rows.map (·.2)) (List.replicate q.x.length 0)
    (List.replicate ((q.groups.map List.length).sum + 1) 0,
      List.replicate ((q.groups.map List.length).sum + 1) (List.replicate q.x.length 0)) with
  | error e => rw [hs] at h; cases e <;> simp at h
  | ok T =>
    rw [hs] at h
    simp only at h
    obtain ⟨t1, t2⟩ := h2 T hs
    rw [sum_replicate_zero] at t1
    split at h
    · simp at h
    · simp only [Option.some.injEq, Except.ok.injEq] at h
      have hsub : lines.Sublist ((List.range ((q.groups.map List.length).sum + 1)).zip (T.1.zip T.2)) := by
        rw [← h]
        refine List.Sublist.trans ?_ (List.dropWhile_sublist (fun (l : EnumLine) => decide (l.2.1 = 0)))
        rw [← List.reverse_sublist, List.reverse_reverse]
        exact List.dropWhile_sublist _
      constructor
      · have h3 := (hsub.map fun l => l.2.1).sum_le_sum (by simp)
        have h4 : (((List.range ((q.groups.map List.length).sum + 1)).zip (T.1.zip T.2)).map fun l => l.2.1).Sublist T.1 := by
          have h41 : ∀ (R A : List Nat) (C : List (List Nat)), ((R.zip (A.zip C)).map fun l => l.2.1).Sublist A := by
            intro R A C
            induction A generalizing R C with
            | nil => simp
            | cons a A ih =>
              cases R with
              | nil => simp
              | cons r R =>
                cases C with
                | nil => simp
                | cons c C =>
                  simp only [List.zip_cons_cons, List.map_cons]
                  exact (ih R C).cons_cons a
          exact h41 _ _ _
        have h5 := h4.sum_le_sum (by simp)
        exact h3.trans (h5.trans (by omega))
      · intro l hl j
        obtain ⟨k, hk, e⟩ := List.getElem_of_mem (hsub.subset hl)
        have h6 := t2 k j
        rw [List.length_zip, List.length_zip, List.length_range] at hk
        rw [← e]
        simp only [List.getElem_zip]
        rw [List.getD_eq_getElem?_getD (l := T.2), List.getD_eq_getElem?_getD (l := T.1),
          List.getElem?_eq_getElem (by omega), List.getElem?_eq_getElem (by omega), Option.getD_some, Option.getD_some] at h6
        exact h6

theorem sum_map_le {α : Type} {f g : α → Nat} {L : List α} (h : ∀ l ∈ L, f l ≤ g l) : (L.map f).sum ≤ (L.map g).sum :=
  List.sum_le_sum h

theorem getD_le_sum (l : List Nat) (j : Nat) : l.getD j 0 ≤ l.sum := by
  rw [List.getD_eq_getElem?_getD]
  cases h : l[j]? with
  | none => simp
  | some w => exact le_sum_of_getElem? h

theorem enumBlockW_eq {M : Nat} {B : Block} (h8 : 8 * 2 ^ B.x.length < M) (hn : 2 ^ B.x.length * B.x.length < M) :
    enumBlockW M B = enumBlock B := by
  unfold enumBlockW enumBlock
  simp only
  rw [enumTableW_eq (by rw [total_eq']; exact h8)]
  cases ht : enumTable (combine B) with
  | none => rfl
  | some r =>
    cases r with
    | error e => rfl
    | ok lines =>
      obtain ⟨h1, h2⟩ := enumTable_lines ht
      rw [total_eq'] at h1
      have hs : ∀ j, (lines.map fun l => l.2.2.getD j 0).sum ≤ (lines.map fun l => l.2.1).sum :=
        fun j => sum_map_le fun l hl => h2 l hl j
      simp only
      congr 1
      congr 1
      funext acc j
      have e1 : (lines.map fun l => l.2.2.getD j 0).sum % M = (lines.map fun l => l.2.2.getD j 0).sum :=
        Nat.mod_eq_of_lt (by have := hs j; omega)
      have e2 : (lines.map fun l => l.2.1).sum % M = (lines.map fun l => l.2.1).sum := Nat.mod_eq_of_lt (by omega)
      have e3 : ((combine B).groups.getD j []).length ≤ B.x.length := by
        rw [← total_eq' B]
        have := getD_le_sum ((combine B).groups.map List.length) j
        rw [List.getD_eq_getElem?_getD, List.getElem?_map] at this
        rw [List.getD_eq_getElem?_getD]
        cases hg : (combine B).groups[j]? with
        | none => simp
        | some v => rw [hg] at this; simpa using this
      have e4 : (lines.map fun l => l.2.1).sum * ((combine B).groups.getD j []).length ≤ 2 ^ B.x.length * B.x.length :=
        Nat.mul_le_mul h1 e3
      rw [e1, e2, Nat.mod_eq_of_lt (a := (lines.map fun l => l.2.1).sum * _) (by omega)]

theorem solveEnumerateW_eq {M : Nat} {S : Sys} (h : ∀ B ∈ S, B.x.length ≤ ENUM_LIMIT →
    8 * 2 ^ B.x.length < M ∧ 2 ^ B.x.length * B.x.length < M) : solveEnumerateW M S = solveEnumerate S := by
  unfold solveEnumerateW solveEnumerate
  split
  · rfl
  · rename_i hl
    have hl : ∀ B ∈ S, B.x.length ≤ ENUM_LIMIT := by
      intro B hB
      by_contra hc
      exact hl (List.any_eq_true.mpr ⟨B, hB, by simpa using hc⟩)
    congr 1
    have : ∀ S : Sys, (∀ B ∈ S, enumBlockW M B = enumBlock B) → S.mapM (enumBlockW M) = S.mapM enumBlock := by
      intro S
      induction S with
      | nil => intro _; rfl
      | cons B S ih =>
        intro hS
        rw [List.mapM_cons, List.mapM_cons, hS B (by simp), ih fun B hB => hS B (by simp [hB])]
    exact this S fun B hB => enumBlockW_eq (h B hB (hl B hB)).1 (h B hB (hl B hB)).2

theorem possTablesW_eq {M : Nat} : ∀ {S : Sys}, (∀ B ∈ S, 8 * 2 ^ B.x.length < M) → possTablesW M S = possTables S := by
  intro S
  induction S with
  | nil => intro _; rfl
  | cons B S ih =>
    intro h
    rw [possTablesW, possTables, enumTableW_eq (by rw [total_eq']; exact h B (by simp)), ih fun B hB => h B (by simp [hB])]
    rfl

theorem calPossibilityW_eq {M : Nat} {g : Board} {minenum : ℚ}
    (h : ∀ S, refreshMatrixs g = some S → ∀ B ∈ S, B.x.length ≤ ENUM_LIMIT → 8 * 2 ^ B.x.length < M) :
    calPossibilityW M g minenum = calPossibility g minenum := by
  unfold calPossibilityW calPossibility
  cases hS : refreshMatrixs g with
  | none => rfl
  | some S =>
    have hp : possTablesW M (S.filter fun B => decide ¬ ENUM_LIMIT < B.x.length) =
        possTables (S.filter fun B => decide ¬ ENUM_LIMIT < B.x.length) := by
      apply possTablesW_eq
      intro B hB
      obtain ⟨hB1, hB2⟩ := List.mem_filter.mp hB
      exact h S hS B hB1 (by simpa using hB2)
    simp only [Option.bind_eq_bind, Option.bind_some]
    rw [hp]
    rfl

theorem calPossibilityOnboardW_eq {M : Nat} {g : Board} {minenum : ℚ}
    (h : ∀ S, refreshMatrixs g = some S → ∀ B ∈ S, B.x.length ≤ ENUM_LIMIT → 8 * 2 ^ B.x.length < M) :
    calPossibilityOnboardW M g minenum = calPossibilityOnboard g minenum := by
  unfold calPossibilityOnboardW calPossibilityOnboard
  rw [calPossibilityW_eq h]
  rfl

end Ms
