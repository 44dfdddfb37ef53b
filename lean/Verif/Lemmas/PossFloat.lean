import Verif.Lemmas.PossFloatOps
import Verif.Lemmas.PossMain

/-! # `cal_possibility` in floating point follows the exact computation -/

set_option exponentiation.threshold 400

namespace Ms
open Spec BigNumber

theorem foldlM_rel_add {α : Type} (f : BigNumber → α → Option BigNumber) (w : α → ℚ) {e c Kt : Nat} : ∀ (l : List α),
    (∀ a ∈ l, 0 ≤ w a) →
    (∀ n K v, ∀ a ∈ l, Rel K e v n → Kt ≤ K → 4 * (v + w a) ≤ 10 ^ e → K + c ≤ 2 ^ 51 →
      ∃ m, f n a = some m ∧ Rel (K + c) e (v + w a) m) → ∀ n K v, Rel K e v n → Kt ≤ K →
    4 * (v + (l.map w).sum) ≤ 10 ^ e → K + l.length * c ≤ 2 ^ 51 →
    ∃ m, l.foldlM f n = some m ∧ Rel (K + l.length * c) e (v + (l.map w).sum) m := by
  intro l
  induction l with
  | nil => intro _ _ n K v h _ _ _; exact ⟨n, rfl, by simpa using h⟩
  | cons a l ih =>
    intro hw h n K v hn hK hV hc
    rw [List.length_cons, Nat.succ_mul] at hc
    rw [List.map_cons, List.sum_cons] at hV
    have hs : 0 ≤ (l.map w).sum := List.sum_nonneg fun x hx => by
      obtain ⟨b, hb, rfl⟩ := List.mem_map.mp hx
      exact hw b (by simp [hb])
    obtain ⟨m, h1, h2⟩ := h n K v a (by simp) hn hK (by linarith) (by omega)
    obtain ⟨m', h3, h4⟩ := ih (fun a ha => hw a (by simp [ha])) (fun n K v a ha => h n K v a (by simp [ha])) m _ _ h2
      (by omega) (by linarith) (by omega)
    refine ⟨m', by rw [List.foldlM_cons, h1]; exact h3, ?_⟩
    rw [List.map_cons, List.sum_cons, ← add_assoc, List.length_cons, Nat.succ_mul,
      show K + (l.length * c + c) = K + c + l.length * c by omega]
    exact h4

/-- The tables are bounded: block `j` has `sz j` cells. -/
structure TabBound (tabs : List (List EnumLine)) (sz : Nat → Nat) : Prop where
  count : ∀ j k, (lineAt tabs j k).2.1 ≤ 2 ^ sz j
  cell : ∀ j k c, (lineAt tabs j k).2.2.getD c 0 ≤ 2 ^ sz j

/-- the cells of all blocks -/
def totalSz (tabs : List (List EnumLine)) (sz : Nat → Nat) : Nat := ((List.range tabs.length).map sz).sum

theorem prefix_le (sz : Nat → Nat) {a b : Nat} (h : a ≤ b) : ((List.range a).map sz).sum ≤ ((List.range b).map sz).sum := by
  obtain ⟨d, rfl⟩ := Nat.exists_eq_add_of_le h
  rw [List.range_add, List.map_append, List.sum_append]
  omega

/-- `othersProd` over the first `n` blocks -/
def othersProdN (tabs : List (List EnumLine)) (s : List Nat) (i n : Nat) : ℚ :=
  ((List.range n).map fun j => if i ≠ j then ((lineAt tabs j (s.getD j 0)).2.1 : ℚ) else 1).prod

theorem othersProdN_succ (tabs : List (List EnumLine)) (s : List Nat) (i n : Nat) : othersProdN tabs s i (n + 1) =
    othersProdN tabs s i n * if i ≠ n then ((lineAt tabs n (s.getD n 0)).2.1 : ℚ) else 1 := by
  unfold othersProdN
  rw [List.range_succ, List.map_append, List.prod_append]
  simp

theorem othersProdN_bound {tabs : List (List EnumLine)} {sz : Nat → Nat} (h : TabBound tabs sz) (s : List Nat) (i n : Nat) :
    (othersProdN tabs s i n = 0 ∨ 1 ≤ othersProdN tabs s i n) ∧
    othersProdN tabs s i n ≤ 2 ^ ((List.range n).map fun j => if i ≠ j then sz j else 0).sum := by
  induction n with
  | zero => simp [othersProdN]
  | succ n ih =>
    rw [othersProdN_succ, List.range_succ, List.map_append, List.sum_append, pow_add]
    have h0 : 0 ≤ othersProdN tabs s i n := by rcases ih.1 with h | h <;> linarith
    by_cases hi : i ≠ n
    · simp only [if_pos hi]
      refine ⟨v01_mul ih.1 (v01_nat _), ?_⟩
      have h1 : ((lineAt tabs n (s.getD n 0)).2.1 : ℚ) ≤ 2 ^ sz n := by exact_mod_cast h.count n _
      simpa [hi] using mul_le_mul ih.2 h1 (by positivity) (by positivity)
    · push Not at hi
      subst hi
      refine ⟨by simpa using ih.1, ?_⟩
      simpa using ih.2

theorem sum_if_le (sz : Nat → Nat) (i n : Nat) :
    ((List.range n).map fun j => if i ≠ j then sz j else 0).sum ≤ ((List.range n).map sz).sum := by
  apply List.sum_le_sum
  intro j _
  split <;> omega

theorem sum_if_eq (sz : Nat → Nat) (i : Nat) : ∀ n, i < n →
    ((List.range n).map fun j => if i ≠ j then sz j else 0).sum + sz i = ((List.range n).map sz).sum := by
  intro n
  induction n with
  | zero => intro h; omega
  | succ n ih =>
    intro h
    rw [List.range_succ, List.map_append, List.map_append, List.sum_append, List.sum_append]
    by_cases hi : i = n
    · subst hi
      have : ((List.range i).map fun j => if i ≠ j then sz j else 0) = (List.range i).map sz := by
        apply List.map_congr_left
        intro j hj
        rw [List.mem_range] at hj
        rw [if_pos (by omega)]
      rw [this]
      simp
    · have := ih (by omega)
      simp [hi]
      simp only [ne_eq, ite_not] at this
      omega

/-- `10` to the power of this exceeds `4 * 2^x`. -/
def digits (x : Nat) : Nat := x / 3 + 2

theorem four_pow_le (x : Nat) : 4 * (2 : ℚ) ^ x ≤ 10 ^ digits x := by
  unfold digits
  have h : x = 3 * (x / 3) + x % 3 := by omega
  have h3 : x % 3 < 3 := Nat.mod_lt _ (by norm_num)
  calc 4 * (2 : ℚ) ^ x = 4 * ((2 ^ 3) ^ (x / 3) * 2 ^ (x % 3)) := by rw [← pow_mul, ← pow_add, ← h]
    _ ≤ 4 * (10 ^ (x / 3) * 2 ^ 2) := by
      apply mul_le_mul_of_nonneg_left _ (by norm_num)
      apply mul_le_mul
      · exact pow_le_pow_left₀ (by norm_num) (by norm_num) _
      · exact pow_le_pow_right₀ (by norm_num) (by omega)
      · positivity
      · positivity
    _ ≤ _ := by
      rw [pow_add]
      have : (0 : ℚ) < 10 ^ (x / 3) := by positivity
      nlinarith

theorem digits_mono {x y : Nat} (h : x ≤ y) : digits x ≤ digits y := by
  unfold digits; omega

theorem otherWaysF_rel {fl : ℚ → ℚ} (hf : Rounds fl) {tabs : List (List EnumLine)} {sz : Nat → Nat} (h : TabBound tabs sz)
    (s : List Nat) (i : Nat) (he : digits (totalSz tabs sz) ≤ 280)
    (hK : tabs.length * (digits (totalSz tabs sz) + 2) ≤ 2 ^ 51) :
    ∃ n, otherWaysF fl tabs s i = some n ∧
      Rel (tabs.length * (digits (totalSz tabs sz) + 2)) (digits (totalSz tabs sz)) (othersProd tabs s i) n := by
  set e := digits (totalSz tabs sz) with hee
  have key : ∀ n, n ≤ tabs.length → ∃ m, (List.range n).foldlM (fun (n : BigNumber) j =>
      if i ≠ j then n.mulUsizeF fl (lineAt tabs j (s.getD j 0)).2.1 else some n) ⟨1, 0⟩ = some m ∧
      Rel (n * (e + 2)) e (othersProdN tabs s i n) m := by
    intro n
    induction n with
    | zero => intro _; exact ⟨_, rfl, by simpa [othersProdN] using rel_one 0 e⟩
    | succ n ih =>
      intro hn
      obtain ⟨m, m1, m2⟩ := ih (by omega)
      rw [List.range_succ, List.foldlM_append, m1]
      simp only [Option.bind_eq_bind, Option.bind_some, List.foldlM_cons, List.foldlM_nil, Option.pure_def]
      have hle : (n + 1) * (e + 2) ≤ tabs.length * (e + 2) := Nat.mul_le_mul_right _ hn
      rw [Nat.succ_mul] at hle
      rw [othersProdN_succ, Nat.succ_mul]
      by_cases hi : i ≠ n
      · simp only [if_pos hi]
        have hb := (othersProdN_bound h s i (n + 1)).2
        have hb2 : othersProdN tabs s i (n + 1) ≤ 2 ^ totalSz tabs sz :=
          hb.trans (pow_le_pow_right₀ (by norm_num) ((sum_if_le sz i (n + 1)).trans (prefix_le sz (by omega))))
        rw [othersProdN_succ, if_pos hi] at hb2
        have h4 := four_pow_le (totalSz tabs sz)
        rw [← hee] at h4
        have hcnt : ((lineAt tabs n (s.getD n 0)).2.1 : ℚ) ≤ 10 ^ 280 := by
          have h1 : ((lineAt tabs n (s.getD n 0)).2.1 : ℚ) ≤ 2 ^ sz n := by exact_mod_cast h.count n _
          have h2 : sz n ≤ totalSz tabs sz := by
            have : ((List.range (n + 1)).map sz).sum ≤ totalSz tabs sz := prefix_le sz (by omega)
            rw [List.range_succ, List.map_append, List.sum_append] at this
            simp at this
            omega
          have h3 : (2 : ℚ) ^ sz n ≤ 2 ^ totalSz tabs sz := pow_le_pow_right₀ (by norm_num) h2
          have h5 : (10 : ℚ) ^ e ≤ 10 ^ 280 := pow_le_pow_right₀ (by norm_num) he
          have h6 : (0 : ℚ) ≤ 2 ^ totalSz tabs sz := by positivity
          linarith
        obtain ⟨k, k1, k2⟩ := hf.mulUsize he (by rw [hee]; unfold digits; omega) m2
          (k := (lineAt tabs n (s.getD n 0)).2.1) hcnt (by linarith) (by omega)
        exact ⟨k, by rw [k1]; rfl, by rwa [show n * (e + 2) + (e + 2) = n * (e + 2) + 2 + e by omega]⟩
      · simp only [if_neg hi, mul_one]
        exact ⟨m, rfl, m2.mono (by omega) le_rfl⟩
  exact key tabs.length le_rfl

/-- the entry of `table_minenum_other` -/
def entB (O : List (List BigNumber)) (i k : Nat) : BigNumber := (O.getD i []).getD k ⟨0, 0⟩

theorem addAtF_ent {fl : ℚ → ℚ} (O : List (List BigNumber)) (i k : Nat) (v x : BigNumber) (hx : (entB O i k).addF fl v = some x)
    (hi : i < O.length) (hk : k < (O.getD i []).length) :
    ∃ O', addAtF fl O i k v = some O' ∧ O'.map List.length = O.map List.length ∧
      ∀ i' k', entB O' i' k' = if i' = i ∧ k' = k then x else entB O i' k' := by
  unfold entB at hx ⊢
  refine ⟨O.modify i fun l => l.set k x, by unfold addAtF; rw [hx]; rfl, ?_, ?_⟩
  · apply List.ext_getElem
    · simp
    · intro n h3 h4
      simp only [List.length_map, List.length_modify] at h3
      simp only [List.getElem_map, List.getElem_modify]
      split <;> simp
  · intro i' k'
    simp only [List.getD_eq_getElem?_getD, List.getElem?_modify] at hk ⊢
    by_cases h : i' = i
    · subst h
      rw [List.getElem?_eq_getElem hi] at hk ⊢
      simp only [Option.map_eq_map, Option.map_some, Option.getD_some, List.getElem?_set, if_true, true_and] at hk ⊢
      by_cases hkk : k = k'
      · subst hkk
        rw [if_pos rfl, if_pos hk, if_pos rfl]
        rfl
      · rw [if_neg hkk, if_neg (fun h => hkk h.symm)]
    · rw [if_neg (fun h' => h h'.1)]
      have : ¬ i = i' := fun h' => h h'.symm
      simp [this]

/-- All that the computation of one position needs: the rounding, the tables, the exact and the rounded numbers of ways for the cells
away from numbers (`U` of them), and room for all numbers (`10^e`). -/
structure Setup (fl : ℚ → ℚ) (tabs : List (List EnumLine)) (sz : Nat → Nat) (unk : List Nat) (ways waysF : List BigNumber)
    (U N eL e : Nat) : Prop where
  hf : Rounds fl
  tab : TabBound tabs sz
  /-- at most `N` choices, and at most `N` terms in every sum -/
  room : 4 * (((N * (U + 1) : Nat) : ℚ) * 2 ^ (totalSz tabs sz + U)) ≤ 10 ^ e
  he : e ≤ 280
  roomL : 4 * ((N : ℚ) * 2 ^ totalSz tabs sz) ≤ 10 ^ eL
  hdL : digits (totalSz tabs sz) ≤ eL
  hd : eL + digits U ≤ e
  lenU : unk.length ≤ U + 1
  lenW : waysF.length = ways.length
  leU : ∀ k ∈ unk, k ≤ U
  wrel : ∀ u, Rel (5 * U + digits U) (digits U) ((ways.getD u ⟨0, 0⟩).value) (waysF.getD u ⟨0, 0⟩)
  wle : ∀ u, (ways.getD u ⟨0, 0⟩).value ≤ 2 ^ U

namespace Setup
variable {fl : ℚ → ℚ} {tabs : List (List EnumLine)} {sz : Nat → Nat} {unk : List Nat} {ways waysF : List BigNumber} {U N eL e : Nat}

theorem w01 (h : Setup fl tabs sz unk ways waysF U N eL e) (u : Nat) :
    (ways.getD u ⟨0, 0⟩).value = 0 ∨ 1 ≤ (ways.getD u ⟨0, 0⟩).value := (h.wrel u).v01

theorem w0 (h : Setup fl tabs sz unk ways waysF U N eL e) (u : Nat) : 0 ≤ (ways.getD u ⟨0, 0⟩).value := (h.wrel u).v0

theorem others_le (h : Setup fl tabs sz unk ways waysF U N eL e) (s : List Nat) (i : Nat) :
    othersProd tabs s i ≤ 2 ^ totalSz tabs sz :=
  (othersProdN_bound h.tab s i tabs.length).2.trans (pow_le_pow_right₀ (by norm_num) (sum_if_le sz i _))

theorem others01 (h : Setup fl tabs sz unk ways waysF U N eL e) (s : List Nat) (i : Nat) :
    othersProd tabs s i = 0 ∨ 1 ≤ othersProd tabs s i := (othersProdN_bound h.tab s i tabs.length).1

theorem others0 (h : Setup fl tabs sz unk ways waysF U N eL e) (s : List Nat) (i : Nat) : 0 ≤ othersProd tabs s i := by
  rcases h.others01 s i with h | h <;> linarith

theorem share01 (h : Setup fl tabs sz unk ways waysF U N eL e) (s : List Nat) (i : Nat) :
    share tabs ways s i = 0 ∨ 1 ≤ share tabs ways s i := by
  unfold share
  split
  · exact h.others01 s i
  · exact v01_mul (h.others01 s i) (h.w01 _)

theorem share0 (h : Setup fl tabs sz unk ways waysF U N eL e) (s : List Nat) (i : Nat) : 0 ≤ share tabs ways s i := by
  rcases h.share01 s i with h | h <;> linarith

theorem share_le (h : Setup fl tabs sz unk ways waysF U N eL e) (s : List Nat) (i : Nat) :
    share tabs ways s i ≤ 2 ^ (totalSz tabs sz + U) := by
  rw [pow_add]
  unfold share
  split
  · exact (h.others_le s i).trans (le_mul_of_one_le_right (by positivity) (one_le_pow₀ (by norm_num)))
  · exact mul_le_mul (h.others_le s i) (h.wle _) (h.w0 _) (by positivity)

/-- the largest number added to column `i`, and the largest exponent there -/
def colB (tabs : List (List EnumLine)) (sz : Nat → Nat) (U i : Nat) : ℚ :=
  if i = tabs.length then 2 ^ totalSz tabs sz else 2 ^ (totalSz tabs sz + U)

def colE (tabs : List (List EnumLine)) (eL e i : Nat) : Nat := if i = tabs.length then eL else e

theorem colE_le (h : Setup fl tabs sz unk ways waysF U N eL e) (i : Nat) : colE tabs eL e i ≤ e := by
  have := h.hd
  unfold colE; split <;> omega

theorem share_col (h : Setup fl tabs sz unk ways waysF U N eL e) (s : List Nat) (i : Nat) :
    share tabs ways s i ≤ colB tabs sz U i := by
  unfold colB
  split
  · rename_i hi
    unfold share
    rw [if_pos hi]
    exact h.others_le s i
  · exact h.share_le s i

theorem fits_col (h : Setup fl tabs sz unk ways waysF U N eL e) (i : Nat) {n : Nat} (hn : n ≤ N) {v : ℚ}
    (hv : v ≤ n * colB tabs sz U i) : 4 * v ≤ 10 ^ colE tabs eL e i := by
  have hnq : (n : ℚ) ≤ N := by exact_mod_cast hn
  unfold colB at hv
  unfold colE
  split at hv
  · rw [if_pos (by assumption)]
    refine le_trans (mul_le_mul_of_nonneg_left ?_ (by norm_num)) h.roomL
    exact hv.trans (mul_le_mul_of_nonneg_right hnq (by positivity))
  · rw [if_neg (by assumption)]
    refine le_trans (mul_le_mul_of_nonneg_left ?_ (by norm_num)) h.room
    refine hv.trans (mul_le_mul_of_nonneg_right ?_ (by positivity))
    exact_mod_cast hn.trans (Nat.le_mul_of_pos_right N (by omega))

/-- a sum of `n ≤ N` numbers of this size fits -/
theorem fits (h : Setup fl tabs sz unk ways waysF U N eL e) {n : Nat} (hn : n ≤ N) {v : ℚ}
    (hv : v ≤ n * 2 ^ (totalSz tabs sz + U)) : 4 * v ≤ 10 ^ e := by
  refine le_trans (mul_le_mul_of_nonneg_left ?_ (by norm_num)) h.room
  refine hv.trans (mul_le_mul_of_nonneg_right ?_ (by positivity))
  exact_mod_cast hn.trans (Nat.le_mul_of_pos_right N (by omega))

/-- the number of ways of one choice -/
theorem shareF (h : Setup fl tabs sz unk ways waysF U N eL e) (hN : 1 ≤ N) (s : List Nat) (i : Nat) (hi : i < tabs.length)
    (hK : (tabs.length + 2) * (e + 2) + 5 * U ≤ 2 ^ 51) :
    ∃ w v, otherWaysF fl tabs s i = some w ∧ w.mulF fl (waysF.getD (s.getD tabs.length 0) ⟨0, 0⟩) = some v ∧
      Rel ((tabs.length + 2) * (e + 2) + 5 * U) e (share tabs ways s i) v := by
  have hd := h.hd
  have hdL := h.hdL
  have hee := h.he
  have hle : tabs.length * (digits (totalSz tabs sz) + 2) ≤ tabs.length * (e + 2) := Nat.mul_le_mul_left _ (by omega)
  rw [Nat.add_mul] at hK
  obtain ⟨w, w1, w2⟩ := otherWaysF_rel h.hf h.tab s i (by omega) (by omega)
  have hs : share tabs ways s i = othersProd tabs s i * (ways.getD (s.getD tabs.length 0) ⟨0, 0⟩).value := by
    unfold share; rw [if_neg (by omega)]
  obtain ⟨v, v1, v2⟩ := h.hf.mul h.he (w2.mono le_rfl h.hdL) (h.wrel (s.getD tabs.length 0)) h.hd
    (by rw [← hs]; exact h.fits (n := 1) hN (by simpa using h.share_le s i)) (by omega)
  refine ⟨w, v, w1, v1, ?_⟩
  rw [hs]
  exact v2.mono (by rw [Nat.add_mul]; omega) le_rfl

theorem lastF (h : Setup fl tabs sz unk ways waysF U N eL e) (s : List Nat)
    (hK : (tabs.length + 2) * (e + 2) + 5 * U ≤ 2 ^ 51) :
    ∃ w, otherWaysF fl tabs s tabs.length = some w ∧
      Rel ((tabs.length + 2) * (e + 2) + 5 * U) eL (share tabs ways s tabs.length) w := by
  have hd := h.hd
  have hdL := h.hdL
  have hee := h.he
  have hle : tabs.length * (digits (totalSz tabs sz) + 2) ≤ tabs.length * (e + 2) := Nat.mul_le_mul_left _ (by omega)
  rw [Nat.add_mul] at hK
  obtain ⟨w, w1, w2⟩ := otherWaysF_rel h.hf h.tab s tabs.length (by omega) (by omega)
  refine ⟨w, w1, ?_⟩
  have hs : share tabs ways s tabs.length = othersProd tabs s tabs.length := by
    unfold share; rw [if_pos rfl]
  rw [hs]
  exact w2.mono (by rw [Nat.add_mul]; omega) (by omega)

/-- one choice -/
theorem choiceF (h : Setup fl tabs sz unk ways waysF U N eL e) {m : Nat} {s : List Nat} (hs : ChoiceOK tabs unk m s)
    (O : List (List BigNumber)) (hO : O.map List.length = otherShape tabs unk) (val : Nat → Nat → ℚ) {n K : Nat} (hn : n < N)
    (hval : ∀ i k, val i k ≤ n * colB tabs sz U i)
    (hrel : ∀ i k, Rel K (colE tabs eL e i) (val i k) (entB O i k)) (hK0 : (tabs.length + 2) * (e + 2) + 5 * U ≤ K) (hK : K + (e + 2) ≤ 2 ^ 51) :
    ∃ O', otherChoiceF fl tabs unk waysF m O s = some O' ∧ O'.map List.length = otherShape tabs unk ∧
      ∀ i k, Rel (K + (e + 2)) (colE tabs eL e i) (val i k + if i ≤ tabs.length ∧ k = s.getD i 0 then share tabs ways s i else 0) (entB O' i k) := by
  have bound : ∀ i k, 4 * (val i k + share tabs ways s i) ≤ 10 ^ colE tabs eL e i := by
    intro i k
    apply h.fits_col i (n := n + 1) hn
    have := hval i k
    have := h.share_col s i
    push_cast
    linarith
  have key : ∀ j, j ≤ tabs.length → ∃ O', (List.range j).foldlM (otherBlockF fl tabs unk waysF m s) O = some O' ∧
      O'.map List.length = otherShape tabs unk ∧
      ∀ i k, if i < j ∧ k = s.getD i 0 then Rel (K + (e + 2)) (colE tabs eL e i) (val i k + share tabs ways s i) (entB O' i k)
        else entB O' i k = entB O i k := by
    intro j
    induction j with
    | zero => intro _; exact ⟨O, rfl, hO, fun i k => by rw [if_neg (by omega)]⟩
    | succ j ih =>
      intro hj
      obtain ⟨O1, h1, h2, h3⟩ := ih (by omega)
      obtain ⟨w, v, w1, v1, v2⟩ := h.shareF (by omega) s j (by omega) (by omega)
      obtain ⟨l1, l2, l3⟩ := shape_get h2
      have hent : entB O1 j (s.getD j 0) = entB O j (s.getD j 0) := by
        have := h3 j (s.getD j 0)
        rwa [if_neg (by omega)] at this
      have hcj : e ≤ colE tabs eL e j := by unfold colE; rw [if_neg (by omega)]
      have hcl := h.colE_le j
      obtain ⟨x, x1, x2⟩ := h.hf.add (hcl.trans h.he) (hrel j (s.getD j 0)) (v2.mono hK0 hcj) (bound _ _) (by omega)
      rw [← hent] at x1
      obtain ⟨O2, a1, a2, a3⟩ := addAtF_ent O1 j (s.getD j 0) v x x1 (by omega)
        (by rw [l2 j (by omega)]; exact hs.idx j (by omega))
      refine ⟨O2, ?_, by rw [a2, h2], fun i k => ?_⟩
      · rw [List.range_succ, List.foldlM_append, h1]
        simp only [Option.bind_eq_bind, Option.bind_some, List.foldlM_cons, List.foldlM_nil, otherBlockF, w1, hs.rest, v1, a1]
        rfl
      · by_cases hik : i = j ∧ k = s.getD j 0
        · obtain ⟨rfl, rfl⟩ := hik
          rw [if_pos ⟨by omega, rfl⟩, a3, if_pos ⟨rfl, rfl⟩]
          exact x2.mono (by omega) le_rfl
        · have hold := h3 i k
          rw [a3, if_neg hik]
          by_cases hlt : i < j ∧ k = s.getD i 0
          · rw [if_pos ⟨by omega, hlt.2⟩]
            rwa [if_pos hlt] at hold
          · rw [if_neg hlt] at hold
            rw [if_neg]
            · exact hold
            · rintro ⟨q1, q2⟩
              by_cases hij : i = j
              · subst hij; exact hik ⟨rfl, q2⟩
              · exact hlt ⟨by omega, q2⟩
  obtain ⟨O1, h1, h2, h3⟩ := key tabs.length le_rfl
  obtain ⟨w, w1, w2⟩ := h.lastF s (by omega)
  obtain ⟨l1, l2, l3⟩ := shape_get h2
  have hent : entB O1 tabs.length (s.getD tabs.length 0) = entB O tabs.length (s.getD tabs.length 0) := by
    have := h3 tabs.length (s.getD tabs.length 0)
    rwa [if_neg (by omega)] at this
  have hcj : eL ≤ colE tabs eL e tabs.length := by unfold colE; rw [if_pos rfl]
  have hcl := h.colE_le tabs.length
  obtain ⟨x, x1, x2⟩ := h.hf.add (hcl.trans h.he) (hrel tabs.length (s.getD tabs.length 0)) (w2.mono hK0 hcj) (bound _ _) (by omega)
  rw [← hent] at x1
  obtain ⟨O2, a1, a2, a3⟩ := addAtF_ent O1 tabs.length (s.getD tabs.length 0) w x x1 (by omega) (by rw [l3]; exact hs.last)
  refine ⟨O2, ?_, by rw [a2, h2], fun i k => ?_⟩
  · unfold otherChoiceF
    rw [h1]
    simp only [Option.bind_eq_bind, Option.bind_some, w1, hs.rest, a1]
  · rw [a3]
    by_cases hik : i = tabs.length ∧ k = s.getD tabs.length 0
    · obtain ⟨rfl, rfl⟩ := hik
      rw [if_pos ⟨le_rfl, rfl⟩, if_pos ⟨rfl, rfl⟩]
      exact x2.mono (by omega) le_rfl
    · rw [if_neg hik]
      have hold := h3 i k
      by_cases hlt : i < tabs.length ∧ k = s.getD i 0
      · rw [if_pos hlt] at hold
        rw [if_pos ⟨by omega, hlt.2⟩]
        exact hold
      · rw [if_neg hlt] at hold
        rw [if_neg, hold, add_zero]
        · exact (hrel i k).mono (by omega) le_rfl
        · rintro ⟨q1, q2⟩
          by_cases hij : i = tabs.length
          · subst hij; exact hik ⟨rfl, q2⟩
          · exact hlt ⟨by omega, q2⟩

/-- the sum of shares -/
def valOf (tabs : List (List EnumLine)) (ways : List BigNumber) (L : List (List Nat)) (i k : Nat) : ℚ :=
  (L.map fun s => if i ≤ tabs.length ∧ k = s.getD i 0 then share tabs ways s i else 0).sum

theorem valOf_le (h : Setup fl tabs sz unk ways waysF U N eL e) (L : List (List Nat)) (i k : Nat) :
    valOf tabs ways L i k ≤ L.length * colB tabs sz U i := by
  unfold valOf
  induction L with
  | nil => simp
  | cons s L ih =>
    rw [List.map_cons, List.sum_cons, List.length_cons]
    push_cast
    have : (if i ≤ tabs.length ∧ k = s.getD i 0 then share tabs ways s i else 0) ≤ colB tabs sz U i := by
      split
      · exact h.share_col s i
      · unfold colB; split <;> positivity
    linarith

/-- `table_minenum_other` -/
theorem otherF (h : Setup fl tabs sz unk ways waysF U N eL e) {m : Nat}
    (hc : ∀ s ∈ possChoices tabs unk m, ChoiceOK tabs unk m s) (hN : (possChoices tabs unk m).length ≤ N)
    (hK : (tabs.length + 2) * (e + 2) + 5 * U + N * (e + 2) ≤ 2 ^ 51) :
    ∃ O, possOtherF fl tabs unk waysF m = some O ∧ O.map List.length = otherShape tabs unk ∧
      ∀ i k, Rel ((tabs.length + 2) * (e + 2) + 5 * U + N * (e + 2)) (colE tabs eL e i) (valOf tabs ways (possChoices tabs unk m) i k) (entB O i k) := by
  set K0 := (tabs.length + 2) * (e + 2) + 5 * U with hK0
  have key : ∀ (L L0 : List (List Nat)), (∀ s ∈ L, ChoiceOK tabs unk m s) → L0.length + L.length ≤ N →
      ∀ O : List (List BigNumber), O.map List.length = otherShape tabs unk →
      (∀ i k, Rel (K0 + L0.length * (e + 2)) (colE tabs eL e i) (valOf tabs ways L0 i k) (entB O i k)) →
      ∃ O', L.foldlM (otherChoiceF fl tabs unk waysF m) O = some O' ∧ O'.map List.length = otherShape tabs unk ∧
      ∀ i k, Rel (K0 + (L0.length + L.length) * (e + 2)) (colE tabs eL e i) (valOf tabs ways (L0 ++ L) i k) (entB O' i k) := by
    intro L
    induction L with
    | nil => intro L0 _ _ O hO hr; exact ⟨O, rfl, hO, by simpa using hr⟩
    | cons s L ih =>
      intro L0 hL hlen O hO hr
      rw [List.length_cons] at hlen
      have hle : (L0.length + (L.length + 1)) * (e + 2) ≤ N * (e + 2) := Nat.mul_le_mul_right _ hlen
      have hle2 : (L0.length + 1) * (e + 2) ≤ (L0.length + (L.length + 1)) * (e + 2) := Nat.mul_le_mul_right _ (by omega)
      rw [Nat.succ_mul] at hle2
      obtain ⟨O1, h1, h2, h3⟩ := h.choiceF (hL s (by simp)) O hO (valOf tabs ways L0) (n := L0.length) (by omega)
        (fun i k => h.valOf_le L0 i k) hr (by omega) (by omega)
      obtain ⟨O2, h4, h5, h6⟩ := ih (L0 ++ [s]) (fun t ht => hL t (by simp [ht])) (by simp; omega) O1 h2 (by
        intro i k
        have := h3 i k
        rw [List.length_append, List.length_singleton, Nat.succ_mul, ← Nat.add_assoc]
        unfold valOf at this ⊢
        rw [List.map_append, List.sum_append]
        simpa using this)
      refine ⟨O2, by rw [List.foldlM_cons, h1]; exact h4, h5, fun i k => ?_⟩
      have := h6 i k
      rw [List.append_assoc, List.singleton_append, List.length_append, List.length_singleton,
        show L0.length + 1 + L.length = L0.length + (s :: L).length by rw [List.length_cons]; omega] at this
      exact this
  obtain ⟨O, h1, h2, h3⟩ := key (possChoices tabs unk m) [] hc (by simpa using hN)
    ((tabs.map fun t => List.replicate t.length (⟨0, 0⟩ : BigNumber)) ++ [List.replicate unk.length ⟨0, 0⟩])
    (by simp [otherShape, Function.comp_def]) (by
      intro i k
      have : entB ((tabs.map fun t => List.replicate t.length (⟨0, 0⟩ : BigNumber)) ++ [List.replicate unk.length ⟨0, 0⟩]) i k = ⟨0, 0⟩ := by
        unfold entB
        have hz : ∀ n, (List.replicate n (⟨0, 0⟩ : BigNumber)).getD k ⟨0, 0⟩ = ⟨0, 0⟩ := by
          intro n
          rw [List.getD_eq_getElem?_getD, List.getElem?_replicate]
          split <;> rfl
        rw [show ∀ (l : List (List BigNumber)), l.getD i [] = l[i]?.getD [] from fun l => List.getD_eq_getElem?_getD ..,
          List.getElem?_append]
        split
        · rename_i h
          rw [List.getElem?_map, List.getElem?_eq_getElem (by simpa using h)]
          simp only [Option.map_some, Option.getD_some, hz]
        · simp only [List.length_map]
          rw [List.getElem?_cons]
          split
          · simp only [Option.getD_some, hz]
          · simp
      rw [this]
      simpa [valOf] using rel_zero (K0 + 0) (colE tabs eL e i) le_rfl (by simp))
  refine ⟨O, h1, h2, fun i k => ?_⟩
  have := h3 i k
  rw [List.nil_append, List.length_nil, Nat.zero_add] at this
  refine this.mono ?_ le_rfl
  have : (possChoices tabs unk m).length * (e + 2) ≤ N * (e + 2) := Nat.mul_le_mul_right _ hN
  omega

theorem list_sum_le_card {α : Type} (L : List α) (f : α → ℚ) {b : ℚ} (hb : ∀ a ∈ L, f a ≤ b) : (L.map f).sum ≤ L.length * b := by
  induction L with
  | nil => simp
  | cons a L ih =>
    rw [List.map_cons, List.sum_cons, List.length_cons]
    push_cast
    have := ih fun a ha => hb a (by simp [ha])
    have := hb a (by simp)
    linarith

theorem mem_le_sum {α : Type} (L : List α) (f : α → ℚ) (h0 : ∀ a ∈ L, 0 ≤ f a) {a : α} (ha : a ∈ L) : f a ≤ (L.map f).sum :=
  List.single_le_sum (fun x hx => by
    obtain ⟨b, hb, rfl⟩ := List.mem_map.mp hx
    exact h0 b hb) _ (List.mem_map.mpr ⟨a, ha, rfl⟩)

theorem allProd_le (h : Setup fl tabs sz unk ways waysF U N eL e) (s : List Nat) : allProd tabs s ≤ 2 ^ totalSz tabs sz := by
  rw [← othersProd_all]; exact h.others_le s _

/-- the exact total fits -/
theorem all_fits (h : Setup fl tabs sz unk ways waysF U N eL e) {m : Nat} (hN : (possChoices tabs unk m).length ≤ N) :
    4 * ((possChoices tabs unk m).map fun s => allProd tabs s * (ways.getD (s.getD tabs.length 0) ⟨0, 0⟩).value).sum ≤ 10 ^ e := by
  apply h.fits hN
  apply list_sum_le_card
  intro s _
  rw [pow_add]
  exact mul_le_mul (h.allProd_le s) (h.wle _) (h.w0 _) (by positivity)

theorem rest_fits (h : Setup fl tabs sz unk ways waysF U N eL e) {m : Nat} (hN : (possChoices tabs unk m).length ≤ N) :
    4 * ((possChoices tabs unk m).map fun s => allProd tabs s * ((ways.getD (s.getD tabs.length 0) ⟨0, 0⟩).value *
      unk.getD (s.getD tabs.length 0) 0)).sum ≤ 10 ^ e := by
  refine le_trans (mul_le_mul_of_nonneg_left ?_ (by norm_num)) h.room
  have h1 := list_sum_le_card (possChoices tabs unk m) (fun s => allProd tabs s * ((ways.getD (s.getD tabs.length 0) ⟨0, 0⟩).value *
      unk.getD (s.getD tabs.length 0) 0)) (b := 2 ^ (totalSz tabs sz + U) * (U + 1)) (by
    intro s _
    rw [pow_add, ← mul_assoc]
    have hu : ((unk.getD (s.getD tabs.length 0) 0 : Nat) : ℚ) ≤ U + 1 := by
      have : unk.getD (s.getD tabs.length 0) 0 ≤ U := by
        rw [List.getD_eq_getElem?_getD]
        cases hx : unk[s.getD tabs.length 0]? with
        | none => simp
        | some x => exact h.leU x (List.mem_of_getElem? hx)
      have : ((unk.getD (s.getD tabs.length 0) 0 : Nat) : ℚ) ≤ U := by exact_mod_cast this
      linarith
    exact mul_le_mul (mul_le_mul (h.allProd_le s) (h.wle _) (h.w0 _) (by positivity)) hu (by positivity) (by positivity))
  refine h1.trans ?_
  have hNq : ((possChoices tabs unk m).length : ℚ) ≤ N := by exact_mod_cast hN
  push_cast
  calc ((possChoices tabs unk m).length : ℚ) * (2 ^ (totalSz tabs sz + U) * (U + 1)) ≤ N * (2 ^ (totalSz tabs sz + U) * (U + 1)) :=
        mul_le_mul_of_nonneg_right hNq (by positivity)
    _ = _ := by ring

theorem cell_fits (h : Setup fl tabs sz unk ways waysF U N eL e) {m : Nat} (hN : (possChoices tabs unk m).length ≤ N) {i : Nat}
    (hi : i < tabs.length) (c : Nat) :
    4 * ((possChoices tabs unk m).map fun s => othersProd tabs s i * ((lineAt tabs i (s.getD i 0)).2.2.getD c 0 : Nat) *
        (ways.getD (s.getD tabs.length 0) ⟨0, 0⟩).value).sum ≤ 10 ^ e := by
  apply h.fits hN
  apply list_sum_le_card
  intro s _
  have h1 := (othersProdN_bound h.tab s i tabs.length).2
  have h2 : ((((lineAt tabs i (s.getD i 0)).2.2.getD c 0 : Nat)) : ℚ) ≤ 2 ^ sz i := by exact_mod_cast h.tab.cell i _ c
  have h3 : (2 : ℚ) ^ totalSz tabs sz = 2 ^ ((List.range tabs.length).map fun j => if i ≠ j then sz j else 0).sum * 2 ^ sz i := by
    rw [← pow_add, sum_if_eq sz i _ hi]; rfl
  rw [pow_add, h3]
  exact mul_le_mul (mul_le_mul h1 h2 (by positivity) (by positivity)) (h.wle _) (h.w0 _) (by positivity)

theorem valOf_entry {m : Nat} {O : List (List BigNumber)} (hO : ∀ i k, i ≤ tabs.length → entry O i k =
        ((possChoices tabs unk m).map fun s => if k = s.getD i 0 then share tabs ways s i else 0).sum)
    {i : Nat} (hi : i ≤ tabs.length) (k : Nat) : valOf tabs ways (possChoices tabs unk m) i k = entry O i k := by
  rw [hO i k hi]
  unfold valOf
  simp only [hi, true_and]

/-- The number of roundings in an entry of `table_minenum_other`. -/
def KO (tabs : List (List EnumLine)) (U N e : Nat) : Nat := (tabs.length + 2) * (e + 2) + 5 * U + N * (e + 2)

/-- the number of all layouts -/
theorem allF (h : Setup fl tabs sz unk ways waysF U N eL e) {m : Nat} {O OF : List (List BigNumber)} (hwl : ways.length = unk.length)
    (hc : ∀ s ∈ possChoices tabs unk m, ChoiceOK tabs unk m s) (hN : (possChoices tabs unk m).length ≤ N)
    (hO : ∀ i k, i ≤ tabs.length → entry O i k =
        ((possChoices tabs unk m).map fun s => if k = s.getD i 0 then share tabs ways s i else 0).sum)
    (hOF : ∀ i k, Rel (KO tabs U N e) (colE tabs eL e i) (valOf tabs ways (possChoices tabs unk m) i k) (entB OF i k))
    {T : BigNumber} (hT : possAll tabs ways O = some T)
    (hK : KO tabs U N e + 5 * U + (U + 3) * (e + 2) ≤ 2 ^ 51) :
    ∃ TF, possAllF fl tabs waysF OF = some TF ∧ Rel (KO tabs U N e + 5 * U + (U + 3) * (e + 2)) e T.value TF ∧
      4 * T.value ≤ 10 ^ e ∧
      ∀ k, k < unk.length → ∃ t, (entB OF tabs.length k).mulF fl (waysF.getD k ⟨0, 0⟩) = some t ∧
        Rel (KO tabs U N e + 5 * U + 2 * (e + 2)) e (entry O tabs.length k * (ways.getD k ⟨0, 0⟩).value) t := by
  obtain ⟨T', t1, t2⟩ := possAll_spec (unk := unk) (m := m) hwl hc hO
  rw [hT] at t1
  cases t1
  have hfit := h.all_fits (m := m) hN
  have hsum := weighted_entries (n := ways.length) (fun k => (ways.getD k ⟨0, 0⟩).value)
    (fun k => hO _ k le_rfl) (fun s hs => by rw [hwl]; exact (hc s hs).last)
  have hTs : T.value = ((List.range ways.length).map fun k => entry O tabs.length k * (ways.getD k ⟨0, 0⟩).value).sum := by
    rw [t2, hsum]
    congr 1
    apply List.map_congr_left
    intro s _
    unfold share
    rw [if_pos rfl, othersProd_all]
  rw [← t2] at hfit
  have hee := h.he
  have hd := h.hd
  have hlen := h.lenU
  have hrel : ∀ k, Rel (KO tabs U N e) eL (entry O tabs.length k) (entB OF tabs.length k) := by
    intro k
    rw [← valOf_entry hO le_rfl]
    have := hOF tabs.length k
    unfold colE at this
    rwa [if_pos rfl] at this
  have hpos : ∀ k, 0 ≤ entry O tabs.length k * (ways.getD k ⟨0, 0⟩).value := fun k => mul_nonneg (hrel k).v0 (h.w0 k)
  have hm : (ways.length) * (e + 2) ≤ (U + 1) * (e + 2) := Nat.mul_le_mul_right _ (by omega)
  have h4 : (U + 3) * (e + 2) = (U + 1) * (e + 2) + 2 * (e + 2) := by ring
  have hone : ∀ k, k < ways.length → ∃ t, (entB OF tabs.length k).mulF fl (waysF.getD k ⟨0, 0⟩) = some t ∧
        Rel (KO tabs U N e + 5 * U + 2 * (e + 2)) e (entry O tabs.length k * (ways.getD k ⟨0, 0⟩).value) t := by
    intro k hk
    have hle : entry O tabs.length k * (ways.getD k ⟨0, 0⟩).value ≤ T.value := by
      rw [hTs]
      exact mem_le_sum _ (fun k => entry O tabs.length k * (ways.getD k ⟨0, 0⟩).value) (fun k _ => hpos k) (List.mem_range.mpr hk)
    obtain ⟨t, t1, t2⟩ := h.hf.mul h.he (hrel k) (h.wrel k) h.hd (by linarith) (by omega)
    exact ⟨t, t1, t2.mono (by omega) le_rfl⟩
  obtain ⟨TF, f1, f2⟩ := foldlM_rel_add (e := e) (c := e + 2) (Kt := KO tabs U N e + 5 * U + 2 * (e + 2)) (fun (T : BigNumber) i => do
    let t ← ((OF.getD tabs.length []).getD i ⟨0, 0⟩).mulF fl (waysF.getD i ⟨0, 0⟩)
    T.addF fl t) (fun k => entry O tabs.length k * (ways.getD k ⟨0, 0⟩).value) (List.range ways.length)
    (fun k _ => hpos k) (by
      intro n K v k hk hn hK2 hV hKc
      rw [List.mem_range] at hk
      obtain ⟨t, t1, t2⟩ := hone k hk
      obtain ⟨x, x1, x2⟩ := h.hf.add h.he hn (t2.mono hK2 le_rfl) hV (by omega)
      refine ⟨x, ?_, x2.mono (by omega) le_rfl⟩
      unfold entB at t1
      simp only [Option.bind_eq_bind, t1, Option.bind_some, x1]) ⟨0, 0⟩ _ 0 (rel_zero _ e le_rfl (by simp)) le_rfl
    (by rw [zero_add, ← hTs]; exact hfit) (by rw [List.length_range]; omega)
  rw [zero_add, ← hTs, List.length_range] at f2
  refine ⟨TF, by unfold possAllF; rw [h.lenW]; exact f1, f2.mono (by omega) le_rfl, hfit, fun k hk => hone k (by omega)⟩

/-- the sum of the mines away from numbers -/
theorem restF (h : Setup fl tabs sz unk ways waysF U N eL e) {m : Nat} {O OF : List (List BigNumber)} (hwl : ways.length = unk.length)
    (hc : ∀ s ∈ possChoices tabs unk m, ChoiceOK tabs unk m s) (hN : (possChoices tabs unk m).length ≤ N)
    (hO : ∀ i k, i ≤ tabs.length → entry O i k =
        ((possChoices tabs unk m).map fun s => if k = s.getD i 0 then share tabs ways s i else 0).sum)
    (hone : ∀ k, k < unk.length → ∃ t, (entB OF tabs.length k).mulF fl (waysF.getD k ⟨0, 0⟩) = some t ∧
        Rel (KO tabs U N e + 5 * U + 2 * (e + 2)) e (entry O tabs.length k * (ways.getD k ⟨0, 0⟩).value) t)
    {u : BigNumber} (hu : possRest tabs unk ways O = some u)
    (hK : KO tabs U N e + 5 * U + (U + 4) * (e + 2) ≤ 2 ^ 51) :
    ∃ uF, possRestF fl tabs unk waysF OF = some uF ∧ Rel (KO tabs U N e + 5 * U + (U + 4) * (e + 2)) e u.value uF ∧
      4 * u.value ≤ 10 ^ e := by
  obtain ⟨u', t1, t2⟩ := possRest_spec (ways := ways) (m := m) hc hO
  rw [hu] at t1
  cases t1
  have hfit := h.rest_fits (m := m) hN
  have hsum := weighted_entries (n := unk.length) (fun k => (ways.getD k ⟨0, 0⟩).value * (unk.getD k 0 : ℚ))
    (fun k => hO _ k le_rfl) (fun s hs => (hc s hs).last)
  have hTs : u.value = ((List.range unk.length).map fun k => entry O tabs.length k * ((ways.getD k ⟨0, 0⟩).value * (unk.getD k 0 : ℚ))).sum := by
    rw [t2, hsum]
    congr 1
    apply List.map_congr_left
    intro s _
    unfold share
    rw [if_pos rfl, othersProd_all]
  rw [← t2] at hfit
  have hee := h.he
  have hd := h.hd
  have hlen := h.lenU
  have hm : (unk.length) * (e + 2) ≤ (U + 1) * (e + 2) := Nat.mul_le_mul_right _ (by omega)
  have h4 : (U + 4) * (e + 2) = (U + 1) * (e + 2) + 3 * (e + 2) := by ring
  have hpos : ∀ k ∈ List.range unk.length, 0 ≤ entry O tabs.length k * ((ways.getD k ⟨0, 0⟩).value * (unk.getD k 0 : ℚ)) := by
    intro k hk
    obtain ⟨t, -, t2⟩ := hone k (List.mem_range.mp hk)
    rw [← mul_assoc]
    exact mul_nonneg t2.v0 (by positivity)
  have hU : U ≤ 840 := by unfold digits at hd; omega
  obtain ⟨TF, f1, f2⟩ := foldlM_rel_add (e := e) (c := e + 2) (Kt := KO tabs U N e + 5 * U + 3 * (e + 2)) (fun (n : BigNumber) i => do
    let u ← ((OF.getD tabs.length []).getD i ⟨0, 0⟩).mulF fl (waysF.getD i ⟨0, 0⟩)
    let u ← u.mulUsizeF fl (unk.getD i 0)
    n.addF fl u) (fun k => entry O tabs.length k * ((ways.getD k ⟨0, 0⟩).value * (unk.getD k 0 : ℚ))) (List.range unk.length)
    hpos (by
      intro n K v k hk hn hK2 hV hKc
      rw [List.mem_range] at hk
      obtain ⟨t, t1, t2⟩ := hone k hk
      have hkU : unk.getD k 0 ≤ 840 := by
        rw [List.getD_eq_getElem?_getD, List.getElem?_eq_getElem hk]
        have := h.leU _ (List.getElem_mem hk)
        simp only [Option.getD_some]
        omega
      have hkq : ((unk.getD k 0 : Nat) : ℚ) ≤ 10 ^ 280 := by
        have : ((unk.getD k 0 : Nat) : ℚ) ≤ 840 := by exact_mod_cast hkU
        exact this.trans (by norm_num)
      have hv0 := hn.v0
      obtain ⟨x, x1, x2⟩ := h.hf.mulUsize h.he (by unfold digits at hd; omega) t2 (k := unk.getD k 0) hkq
        (by rw [mul_assoc]; linarith) (by omega)
      rw [mul_assoc] at x2
      obtain ⟨y, y1, y2⟩ := h.hf.add h.he hn (x2.mono (by omega) le_rfl) hV (by omega)
      refine ⟨y, ?_, y2.mono (by omega) le_rfl⟩
      unfold entB at t1
      simp only [Option.bind_eq_bind, t1, Option.bind_some, x1, y1]) ⟨0, 0⟩ _ 0 (rel_zero _ e le_rfl (by simp)) le_rfl
    (by rw [zero_add, ← hTs]; exact hfit) (by rw [List.length_range]; omega)
  rw [zero_add, ← hTs, List.length_range] at f2
  exact ⟨TF, f1, f2.mono (by omega) le_rfl, hfit⟩

/-- the number of layouts with a mine at a cell -/
theorem cellF (h : Setup fl tabs sz unk ways waysF U N eL e) {m : Nat} {O OF : List (List BigNumber)}
    (hs : O.map List.length = otherShape tabs unk) (hsF : OF.map List.length = otherShape tabs unk)
    (hc : ∀ s ∈ possChoices tabs unk m, ChoiceOK tabs unk m s) (hN : (possChoices tabs unk m).length ≤ N)
    (hO : ∀ i k, i ≤ tabs.length → entry O i k =
        ((possChoices tabs unk m).map fun s => if k = s.getD i 0 then share tabs ways s i else 0).sum)
    (hOF : ∀ i k, Rel (KO tabs U N e) (colE tabs eL e i) (valOf tabs ways (possChoices tabs unk m) i k) (entB OF i k))
    {i : Nat} (hi : i < tabs.length) {c L : Nat} (hL : (tabs.getD i []).length ≤ L) {n : BigNumber} (hn : possCell tabs O i c = some n)
    (hK : KO tabs U N e + (L + 1) * (e + 2) ≤ 2 ^ 51) :
    ∃ nF, possCellF fl tabs OF i c = some nF ∧ Rel (KO tabs U N e + (L + 1) * (e + 2)) e n.value nF ∧ 4 * n.value ≤ 10 ^ e := by
  obtain ⟨n', t1, t2⟩ := possCell_spec (m := m) hs hc hO hi c
  rw [hn] at t1
  cases t1
  have hfit := h.cell_fits (m := m) hN hi c
  have hl1 := (shape_get hs).2.1 i hi
  have hl2 := (shape_get hsF).2.1 i hi
  have hsum := weighted_entries (n := (O.getD i []).length) (fun k => (((lineAt tabs i k).2.2.getD c 0 : Nat) : ℚ))
    (fun k => hO i k (by omega)) (fun s hs' => by rw [hl1]; exact (hc s hs').idx i hi)
  have hTs : n.value = ((List.range (OF.getD i []).length).map fun k => entry O i k * (((lineAt tabs i k).2.2.getD c 0 : Nat) : ℚ)).sum := by
    rw [t2, hl2, ← hl1, hsum]
    congr 1
    apply List.map_congr_left
    intro s _
    unfold share
    rw [if_neg (by omega)]
    ring
  rw [← t2] at hfit
  have hee := h.he
  have hd := h.hd
  have hm : (OF.getD i []).length * (e + 2) ≤ L * (e + 2) := Nat.mul_le_mul_right _ (by omega)
  rw [Nat.succ_mul] at hK
  have hrel : ∀ k, Rel (KO tabs U N e) e (entry O i k) (entB OF i k) := by
    intro k
    rw [← valOf_entry hO (by omega)]
    have := hOF i k
    unfold colE at this
    rwa [if_neg (by omega)] at this
  obtain ⟨TF, f1, f2⟩ := foldlM_rel_add (e := e) (c := e + 2) (Kt := KO tabs U N e + (e + 2)) (fun (n : BigNumber) k => do
    let o ← ((OF.getD i []).getD k ⟨0, 0⟩).mulUsizeF fl ((lineAt tabs i k).2.2.getD c 0)
    n.addF fl o) (fun k => entry O i k * (((lineAt tabs i k).2.2.getD c 0 : Nat) : ℚ)) (List.range (OF.getD i []).length)
    (fun k _ => mul_nonneg (hrel k).v0 (by positivity)) (by
      intro n K v k hk hn hK2 hV hKc
      rw [List.mem_range] at hk
      have hkq : (((lineAt tabs i k).2.2.getD c 0 : Nat) : ℚ) ≤ 10 ^ 280 := by
        have h1 : (((lineAt tabs i k).2.2.getD c 0 : Nat) : ℚ) ≤ 2 ^ sz i := by exact_mod_cast h.tab.cell i k c
        have h2 : sz i ≤ totalSz tabs sz := by
          have := sum_if_eq sz i _ hi
          unfold totalSz
          omega
        have h3 : (2 : ℚ) ^ sz i ≤ 2 ^ totalSz tabs sz := pow_le_pow_right₀ (by norm_num) h2
        have h4 := four_pow_le (totalSz tabs sz)
        have h5 : (10 : ℚ) ^ digits (totalSz tabs sz) ≤ 10 ^ 280 := pow_le_pow_right₀ (by norm_num) (by have := h.hdL; omega)
        have h6 : (0 : ℚ) ≤ 2 ^ totalSz tabs sz := by positivity
        linarith
      have hv0 := hn.v0
      obtain ⟨x, x1, x2⟩ := h.hf.mulUsize h.he (by unfold digits at hd; omega) (hrel k)
        (k := (lineAt tabs i k).2.2.getD c 0) hkq (by linarith) (by omega)
      obtain ⟨y, y1, y2⟩ := h.hf.add h.he hn (x2.mono (by omega) le_rfl) hV (by omega)
      refine ⟨y, ?_, y2.mono (by omega) le_rfl⟩
      unfold entB at x1
      simp only [Option.bind_eq_bind, Option.bind_some, x1, y1]) ⟨0, 0⟩ _ 0 (rel_zero _ e le_rfl (by simp)) le_rfl
    (by rw [zero_add, ← hTs]; exact hfit) (by rw [List.length_range]; omega)
  rw [zero_add, ← hTs, List.length_range] at f2
  refine ⟨TF, f1, f2.mono (by rw [Nat.succ_mul]; omega) le_rfl, hfit⟩

/-- The number of roundings in a probability. -/
def KP (tabs : List (List EnumLine)) (U N L e : Nat) : Nat :=
  2 * KO tabs U N e + 10 * U + (2 * U + L + 10) * (e + 2)

/-- the quotient of two numbers -/
theorem quot (h : Setup fl tabs sz unk ways waysF U N eL e) {K K' : Nat} {n T nF TF : BigNumber} (hn : Rel K e n.value nF)
    (hT : Rel K' e T.value TF) (h4 : 4 * n.value ≤ 10 ^ e) (h4' : 4 * T.value ≤ 10 ^ e) (hK : K + K' + (e + 2) ≤ 2 ^ 51) :
    WithinO (K + K' + (e + 2)) (n.divBig T) (nF.divBigF fl TF) := by
  have hd := h.hf.divBig h.he hn hT h4 h4' (by omega)
  by_cases hz : T.value = 0
  · rw [hd.1 hz]
    have : T.a = 0 := by
      by_contra hc
      exact (value_ne_zero_iff T).mpr hc hz
    unfold divBig
    rw [if_pos this]
    trivial
  · obtain ⟨p, p1, p2⟩ := hd.2 hz
    rw [p1, divBig_spec n T ((value_ne_zero_iff T).mp hz)]
    exact p2.mono (div_nonneg hn.v0 hT.v0) (by omega)

/-- the probabilities of one block -/
theorem blockF (h : Setup fl tabs sz unk ways waysF U N eL e) {m : Nat} {O OF : List (List BigNumber)}
    (hs : O.map List.length = otherShape tabs unk) (hsF : OF.map List.length = otherShape tabs unk)
    (hc : ∀ s ∈ possChoices tabs unk m, ChoiceOK tabs unk m s) (hN : (possChoices tabs unk m).length ≤ N)
    (hO : ∀ i k, i ≤ tabs.length → entry O i k =
        ((possChoices tabs unk m).map fun s => if k = s.getD i 0 then share tabs ways s i else 0).sum)
    (hOF : ∀ i k, Rel (KO tabs U N e) (colE tabs eL e i) (valOf tabs ways (possChoices tabs unk m) i k) (entB OF i k))
    {T TF : BigNumber} (hT : Rel (KO tabs U N e + 5 * U + (U + 3) * (e + 2)) e T.value TF) (hT4 : 4 * T.value ≤ 10 ^ e)
    {i : Nat} (hi : i < tabs.length) {L : Nat} (hL : (tabs.getD i []).length ≤ L) (B : Block)
    (hK : KP tabs U N L e ≤ 2 ^ 51) :
    ∃ l lF, possBlock tabs O T i B = some l ∧ possBlockF fl tabs OF TF i B = some lF ∧
      List.Forall₂ (fun x y => x.1 = y.1 ∧ WithinO (KP tabs U N L e) x.2 y.2) l lF := by
  have e1 : (2 * U + L + 10) * (e + 2) = (L + 1) * (e + 2) + (U + 3) * (e + 2) + (e + 2) + (U + 5) * (e + 2) := by ring
  have hone : ∀ c, ∃ n nF, possCell tabs O i c = some n ∧ possCellF fl tabs OF i c = some nF ∧
      WithinO (KP tabs U N L e) (n.divBig T) (nF.divBigF fl TF) := by
    intro c
    obtain ⟨n, n1, -⟩ := possCell_spec (m := m) hs hc hO hi c
    obtain ⟨nF, f1, f2, f3⟩ := h.cellF hs hsF hc hN hO hOF hi hL n1 (by unfold KP at hK; omega)
    refine ⟨n, nF, n1, f1, ?_⟩
    have hm : (L + 1) * (e + 2) ≤ (U + L + 6) * (e + 2) := Nat.mul_le_mul_right _ (by omega)
    have e2 : KO tabs U N e + 5 * U + (U + L + 6) * (e + 2) + (KO tabs U N e + 5 * U + (U + 3) * (e + 2)) + (e + 2) = KP tabs U N L e := by
      unfold KP; ring
    have hq := h.quot (f2.mono (by omega : _ ≤ KO tabs U N e + 5 * U + (U + L + 6) * (e + 2)) le_rfl) hT f3 hT4 (by omega)
    rwa [e2] at hq
  unfold possBlock possBlockF
  have key : ∀ cs : List Nat, ∃ l lF, (cs.mapM fun c => do
      let n ← possCell tabs O i c
      pure (((combine B).groups.getD c []).map fun k => (B.x.getD k (0, 0), n.divBig T))) = some l ∧
      (cs.mapM fun c => do
      let n ← possCellF fl tabs OF i c
      pure (((combine B).groups.getD c []).map fun k => (B.x.getD k (0, 0), n.divBigF fl TF))) = some lF ∧
      List.Forall₂ (fun x y => x.1 = y.1 ∧ WithinO (KP tabs U N L e) x.2 y.2) l.flatten lF.flatten := by
    intro cs
    induction cs with
    | nil => exact ⟨[], [], by simp, by simp, .nil⟩
    | cons c cs ih =>
      obtain ⟨l, lF, h1, h2, h3⟩ := ih
      obtain ⟨n, nF, n1, n2, n3⟩ := hone c
      refine ⟨((combine B).groups.getD c []).map (fun k => (B.x.getD k (0, 0), n.divBig T)) :: l,
        ((combine B).groups.getD c []).map (fun k => (B.x.getD k (0, 0), nF.divBigF fl TF)) :: lF, ?_, ?_, ?_⟩
      · rw [List.mapM_cons, n1, h1]; rfl
      · rw [List.mapM_cons, n2, h2]; rfl
      · rw [List.flatten_cons, List.flatten_cons]
        refine List.rel_append ?_ h3
        rw [List.forall₂_map_left_iff, List.forall₂_map_right_iff]
        exact List.forall₂_same.mpr fun k _ => ⟨rfl, n3⟩
  obtain ⟨l, lF, h1, h2, h3⟩ := key (List.range (combine B).groups.length)
  exact ⟨l.flatten, lF.flatten, by rw [h1]; rfl, by rw [h2]; rfl, h3⟩

end Setup

end Ms
