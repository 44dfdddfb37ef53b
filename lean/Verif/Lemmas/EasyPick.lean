import Verif.Lemmas.EasyChunk

/-! One round of `is_solvable`, seen from the board. -/

namespace Ms
open Spec

variable {r c : Nat} {b : Board} {s : Pos} {O : Finset Pos} {g : Board} {C : Finset Pos}

/-! ## nothing found -/

theorem solveDirect_quiet {S : Sys} (h : ∀ B ∈ S, Block01 B) (hc : ∀ B ∈ S, BlockCovered B) (hh : ∀ B ∈ S, RowsHit B)
    (hr : ∀ B ∈ S, B.rows ≠ []) {out : SolveOut} (ho : solveDirect S g = some out) (hres : out.res = .ok ([], [])) :
    chunkMatrixes S = some out.sys ∧ ∀ B ∈ S, ∀ row ∈ B.rows, ∀ v, ¬ Trig v row := by
  unfold solveDirect at ho
  simp only at ho
  split at ho
  · obtain rfl := Option.some.inj ho
    simp at hres
  · cases hS : chunkMatrixes (directSweep S ⟨[], [], g⟩).1 with
    | none => rw [hS] at ho; simp at ho
    | some S' =>
      rw [hS] at ho
      obtain rfl := Option.some.inj ho
      simp only [Except.ok.injEq, Prod.mk.injEq] at hres
      obtain ⟨q1, q2⟩ := directSweep_quiet ⟨[], [], g⟩ S h hc hh hr (by
        unfold Marks.size; rw [hres.1, hres.2])
      rw [q1] at hS
      exact ⟨hS, q2⟩

theorem solveMinus_quiet {S : Sys} (h : ∀ B ∈ S, Block01 B) (hc : ∀ B ∈ S, BlockCovered B) (hsat : ∃ σ, Solves σ S)
    (hh : ∀ B ∈ S, RowsHit B) (hr : ∀ B ∈ S, B.rows ≠ []) {out : SolveOut} (ho : solveMinus S g = some out)
    (hres : out.res = .ok ([], [])) :
    (∃ S1, chunkMatrixes S = some S1 ∧ chunkMatrixes S1 = some out.sys) ∧
      ∀ B ∈ S, ∀ i j, j < i → i < B.rows.length → (minusPair B i j).1 = [] ∧ (minusPair B i j).2 = [] := by
  unfold solveMinus at ho
  simp only [Option.bind_eq_bind] at ho
  cases hd : solveDirect (minusSweep S ⟨[], [], g⟩).1 (minusSweep S ⟨[], [], g⟩).2.board with
  | none => rw [hd] at ho; simp at ho
  | some d =>
    rw [hd] at ho
    simp only [Option.bind_some] at ho
    cases hres' : d.res with
    | error e =>
      rw [hres'] at ho
      obtain rfl := Option.some.inj ho
      simp at hres
    | ok x =>
      obtain ⟨n', i'⟩ := x
      rw [hres'] at ho
      simp only at ho
      cases hS : chunkMatrixes d.sys with
      | none => rw [hS] at ho; simp at ho
      | some S' =>
        rw [hS] at ho
        obtain rfl := Option.some.inj ho
        simp only [Except.ok.injEq, Prod.mk.injEq, List.append_eq_nil_iff] at hres
        obtain ⟨⟨e1, rfl⟩, e2, rfl⟩ := hres
        obtain ⟨q1, q2⟩ := minusSweep_quiet ⟨[], [], g⟩ S h hc hsat hh (by unfold Marks.size; rw [e1, e2])
        rw [q1] at hd
        obtain ⟨a1, -⟩ := solveDirect_quiet h hc hh hr hd hres'
        exact ⟨⟨d.sys, a1, hS⟩, q2⟩

/-! ## when an equation triggers -/

theorem sum_map01 (f : Pos → Int) (hf : ∀ q, f q = 0 ∨ f q = 1) (x : List Pos) :
    (x.map f).sum = ((x.filter fun q => f q = 1).length : Int) := by
  induction x with
  | nil => simp
  | cons q x ih =>
    rw [List.map_cons, List.sum_cons, ih, List.filter_cons]
    rcases hf q with h | h
    · simp [h]
    · simp [h]; omega

theorem trig_of_layout {σ : Pos → Bool} {B : Block} (hs : SolvesB σ B) {row : List Int × Int} (hr : row ∈ B.rows) {q : Pos}
    (hq : row.1 = B.x.map (coeff q)) {v : Bool} (hv : ∀ t ∈ B.x, Near q t → σ t = v) : Trig v row := by
  have h1 := hs row hr
  rw [hq, lhs_map_coeff σ (coeff q) (coeff01 q)] at h1
  unfold Trig
  cases v
  · simp only [Bool.false_eq_true, if_false]
    rw [← h1]
    have : (B.x.filter fun t => decide (coeff q t = 1 ∧ σ t = true)) = [] := by
      rw [List.filter_eq_nil_iff]
      intro t ht
      rw [decide_eq_true_eq]
      rintro ⟨h2, h3⟩
      rw [hv t ht (coeff_eq_one.mp h2)] at h3
      simp at h3
    rw [this]; rfl
  · simp only [if_true]
    rw [← h1, hq, sum_map01 _ (coeff01 q)]
    congr 2
    apply List.filter_congr
    intro t ht
    rw [decide_eq_decide]
    exact ⟨fun h2 => ⟨h2, hv t ht (coeff_eq_one.mp h2)⟩, fun h2 => h2.1⟩

theorem diff_exact (σ : Pos → Bool) : ∀ (a a' : List Int) (x : List Pos), a.length = x.length →
    a'.length = x.length → (∀ c ∈ a, c = 0 ∨ c = 1) → (∀ c ∈ a', c = 0 ∨ c = 1) →
    (∀ k, k < x.length → (a.getD k 0 = 1 → a'.getD k 0 = 0 → σ (x.getD k (0, 0)) = true) ∧
      (a.getD k 0 = 0 → a'.getD k 0 = 1 → σ (x.getD k (0, 0)) = false)) →
    lhs σ a x - lhs σ a' x = diffCount a a' x.length := by
  intro a
  induction a with
  | nil =>
    intro a' x h h' _ _ _
    cases x with
    | nil =>
      cases a' with
      | nil => simp [diffCount]
      | cons _ _ => simp at h'
    | cons _ _ => simp at h
  | cons c a ih =>
    intro a' x h h' h1 h1' hk
    cases x with
    | nil => simp at h
    | cons p x =>
      cases a' with
      | nil => simp at h'
      | cons c' a' =>
        have i1 := ih a' x (by simpa using h) (by simpa using h') (fun c hc => h1 c (by simp [hc]))
          (fun c hc => h1' c (by simp [hc])) (fun k hkl => by
            have := hk (k + 1) (by simpa using hkl)
            simpa using this)
        have hc := h1 c (by simp)
        have hc' := h1' c' (by simp)
        have h0 := hk 0 (by simp)
        simp only [List.getD_cons_zero] at h0
        rw [List.length_cons, diffCount_cons, lhs_cons, lhs_cons]
        rcases hc with rfl | rfl <;> rcases hc' with rfl | rfl <;>
          rcases Bool.eq_false_or_eq_true (σ p) with hσ | hσ <;> simp [hσ] at h0 ⊢ <;> omega

/-- two equations whose difference decides all cells that occur in only one of them are noticed by `solve_minus` -/
theorem minusPair_hits {σ : Pos → Bool} {B : Block} (h : Block01 B) (hs : SolvesB σ B) {i j : Nat} (hi : i < B.rows.length)
    (hj : j < B.rows.length) {q q' : Pos} (hq : (B.rows.getD i ([], 0)).1 = B.x.map (coeff q))
    (hq' : (B.rows.getD j ([], 0)).1 = B.x.map (coeff q')) {u : Pos} (hu : u ∈ B.x) (hu1 : Near q u) (hu2 : Near q' u)
    (v : Bool) (h1 : ∀ t ∈ B.x, Near q t → ¬ Near q' t → σ t = v) (h2 : ∀ t ∈ B.x, Near q' t → ¬ Near q t → σ t = !v)
    {t : Pos} (ht : t ∈ B.x) (ht' : ¬ (Near q t ↔ Near q' t)) :
    ¬ ((minusPair B i j).1 = [] ∧ (minusPair B i j).2 = []) := by
  have hri := h _ (getD_rows_mem hi)
  have hrj := h _ (getD_rows_mem hj)
  have si := hs _ (getD_rows_mem hi)
  have sj := hs _ (getD_rows_mem hj)
  unfold minusPair
  simp only
  generalize B.rows.getD i ([], 0) = ri at *
  generalize B.rows.getD j ([], 0) = rj at *
  have e1 : ((List.range B.x.length).filter fun k =>
      decide (¬ (ri.1.getD k 0 ≥ 1 ∧ rj.1.getD k 0 ≥ 1) ∧ ri.1.getD k 0 - rj.1.getD k 0 = 1)) =
      (List.range B.x.length).filter fun k => decide (ri.1.getD k 0 = 1 ∧ rj.1.getD k 0 = 0) := by
    apply List.filter_congr
    intro k _
    rw [decide_eq_decide]
    rcases getD_mem01 hri.2 k with e | e <;> rcases getD_mem01 hrj.2 k with e' | e' <;> rw [e, e'] <;> decide
  have e2 : ((List.range B.x.length).filter fun k =>
      decide (¬ (ri.1.getD k 0 ≥ 1 ∧ rj.1.getD k 0 ≥ 1) ∧ ri.1.getD k 0 - rj.1.getD k 0 = -1)) =
      (List.range B.x.length).filter fun k => decide (rj.1.getD k 0 = 1 ∧ ri.1.getD k 0 = 0) := by
    apply List.filter_congr
    intro k _
    rw [decide_eq_decide]
    rcases getD_mem01 hri.2 k with e | e <;> rcases getD_mem01 hrj.2 k with e' | e' <;> rw [e, e'] <;> decide
  rw [e1, e2]
  have hget : ∀ (a : Pos) k, k < B.x.length → (B.x.map (coeff a)).getD k 0 = coeff a (B.x.getD k (0, 0)) := by
    intro a k hk
    rw [List.getD_eq_getElem?_getD, List.getD_eq_getElem?_getD, List.getElem?_map, List.getElem?_eq_getElem hk]
    simp
  have hzero : ∀ a t, coeff a t = 0 ↔ ¬ Near a t := by
    intro a t
    rw [← coeff_eq_one]
    rcases coeff01 a t with e | e <;> rw [e] <;> decide
  have hidx : ∀ t ∈ B.x, ∃ k, k < B.x.length ∧ B.x.getD k (0, 0) = t := by
    intro t ht
    obtain ⟨k, hk, rfl⟩ := List.getElem_of_mem ht
    exact ⟨k, hk, by rw [List.getD_eq_getElem?_getD, List.getElem?_eq_getElem hk]; rfl⟩
  have hany : ((List.range B.x.length).any fun k => decide (ri.1.getD k 0 ≥ 1 ∧ rj.1.getD k 0 ≥ 1)) = true := by
    obtain ⟨k, hk, rfl⟩ := hidx u hu
    rw [List.any_eq_true]
    refine ⟨k, List.mem_range.mpr hk, ?_⟩
    rw [decide_eq_true_eq, hq, hq', hget q k hk, hget q' k hk, coeff_eq_one.mpr hu1, coeff_eq_one.mpr hu2]
    decide
  have hpn : ∃ k, k ∈ ((List.range B.x.length).filter fun k => decide (ri.1.getD k 0 = 1 ∧ rj.1.getD k 0 = 0)) ∨
      k ∈ ((List.range B.x.length).filter fun k => decide (rj.1.getD k 0 = 1 ∧ ri.1.getD k 0 = 0)) := by
    obtain ⟨k, hk, rfl⟩ := hidx t ht
    refine ⟨k, ?_⟩
    simp only [List.mem_filter, List.mem_range, decide_eq_true_eq, hq, hq', hget q k hk, hget q' k hk, hzero, coeff_eq_one]
    tauto
  have hne : ∀ P N : List Nat, (∃ k, k ∈ P ∨ k ∈ N) → ¬ (P = [] ∧ N = []) := by
    rintro P N ⟨k, hk⟩ ⟨rfl, rfl⟩
    simp at hk
  have hc : ∀ a a' : Pos, ∀ w : Bool, (∀ t ∈ B.x, Near a t → ¬ Near a' t → σ t = w) → ∀ k, k < B.x.length →
      (B.x.map (coeff a)).getD k 0 = 1 → (B.x.map (coeff a')).getD k 0 = 0 → σ (B.x.getD k (0, 0)) = w := by
    intro a a' w hw k hk f1 f2
    rw [hget a k hk, coeff_eq_one] at f1
    rw [hget a' k hk, hzero] at f2
    exact hw _ (getD_mem_of_lt _ hk) f1 f2
  rw [if_pos hany]
  split
  · exact hne _ _ hpn
  · rename_i hd
    split
    · exact hne _ _ (hpn.imp fun k hk => hk.symm)
    · rename_i hd'
      exfalso
      cases v
      · have := diff_exact σ rj.1 ri.1 B.x hrj.1 hri.1 hrj.2 hri.2 (fun k hk => by
          rw [hq, hq']
          exact ⟨fun f1 f2 => hc q' q true h2 k hk f1 f2, fun f1 f2 => hc q q' false h1 k hk f2 f1⟩)
        rw [si, sj] at this
        apply hd'
        unfold diffCount at this
        rw [← this]; omega
      · have := diff_exact σ ri.1 rj.1 B.x hri.1 hrj.1 hri.2 hrj.2 (fun k hk => by
          rw [hq, hq']
          exact ⟨fun f1 f2 => hc q q' true h1 k hk f1 f2, fun f1 f2 => hc q' q false h2 k hk f2 f1⟩)
        rw [si, sj] at this
        apply hd
        unfold diffCount at this
        rw [← this]

/-! ## what the game board knows -/

/-- the cells that are not covered any more -/
def known (r c : Nat) (g : Board) : Finset Pos := (grid r c).filter fun p => bval g p ≠ 10

theorem mem_known {p : Pos} : p ∈ known r c g ↔ p ∈ grid r c ∧ bval g p ≠ 10 := by
  unfold known; rw [Finset.mem_filter]

section
variable (hb : BoardOK r c b) (hs : layout b s = false) (hsg : s ∈ grid r c) (k : KInv r c b s O g)
include hb hs hsg k

theorem KInv.mine11 {p : Pos} (hp : p ∈ grid r c) (hO : p ∉ O) (h10 : bval g p ≠ 10) :
    bval g p = 11 ∧ layout b p = true := by
  rcases k.covered p hp hO with h | ⟨h, hf⟩
  · exact absurd h h10
  · exact ⟨h, hf _ (layout_explains (openable_safe hs k.openable))⟩

theorem KInv.reads {q : Pos} : ReadsAt r c b (known r c g) q ↔ q ∈ O := by
  constructor
  · rintro ⟨h1, h2, h3⟩
    by_contra hO
    have := (k.mine11 hb hs hsg h1 hO (mem_known.mp h2).2).2
    rw [h3] at this; simp at this
  · intro hO
    have hq := openable_grid hsg k.openable hO
    exact ⟨hq, mem_known.mpr ⟨hq, fun h => k.not_open hb hs hsg (.inl h) hO⟩, openable_safe hs k.openable q hO⟩

theorem KInv.number_iff {q : Pos} : IsNumber g q ↔ ReadsAt r c b (known r c g) q := by
  rw [k.isNumber hb hs hsg, k.reads hb hs hsg]

theorem KInv.covered_iff {q : Pos} : IsCovered g q ↔ q ∈ grid r c ∧ q ∉ known r c g := by
  rw [k.isCovered hb hs hsg, mem_known]
  constructor
  · rintro ⟨h1, h2⟩; exact ⟨h1, fun h => h.2 h2⟩
  · rintro ⟨h1, h2⟩; exact ⟨h1, by by_contra h; exact h2 ⟨h1, h⟩⟩

theorem KInv.edge_iff {q : Pos} : Frontier g q ↔ Edge r c b (known r c g) q := by
  unfold Frontier Edge
  rw [k.covered_iff hb hs hsg, and_assoc]
  refine and_congr_right fun _ => and_congr_right fun _ => ?_
  exact exists_congr fun n => and_congr_left' (k.number_iff hb hs hsg)

theorem KInv.tied_iff {p q : Pos} : SharesNumbers g p q ↔ Tied r c b (known r c g) p q := by
  have : (fun a b => IsCovered g b ∧ ∃ n, IsNumber g n ∧ Near n a ∧ Near n b) =
      (fun x y => (y ∈ grid r c ∧ y ∉ known r c g) ∧ ∃ n, ReadsAt r c b (known r c g) n ∧ Near n x ∧ Near n y) := by
    funext x y
    rw [k.covered_iff hb hs hsg]
    refine propext (and_congr_right fun _ => exists_congr fun n => and_congr_left' (k.number_iff hb hs hsg))
  unfold SharesNumbers Tied
  rw [this]

theorem KInv.double_iff {p : Pos} : TwinCell g p ↔ HasDouble r c b (known r c g) p := by
  unfold TwinCell HasDouble
  constructor
  · rintro ⟨q, h1, h2, h3⟩
    have h4 := (k.covered_iff hb hs hsg).mp h2
    exact ⟨q, h4.1, h4.2, h1, fun n hn => h3 n ((k.number_iff hb hs hsg).mpr hn)⟩
  · rintro ⟨q, h1, h2, h3, h4⟩
    exact ⟨q, h3, (k.covered_iff hb hs hsg).mpr ⟨h1, h2⟩, fun n hn => h4 n ((k.number_iff hb hs hsg).mp hn)⟩

theorem KInv.certain_iff {p : Pos} (hp : IsCovered g p) (v : Bool) :
    (∀ σ, Consistent g σ → σ p = v) ↔ ∀ σ, Fits r c b (known r c g) σ → σ p = v := by
  constructor
  · intro h σ hσ
    refine h σ (k.consistent hb hs hsg fun q hq => ?_)
    have hr := (k.reads hb hs hsg).mpr hq
    exact ⟨(hσ.1 q hr.1 hr.2.1).trans hr.2.2, hσ.2 q hr⟩
  · intro h σ hσ
    have h10 := ((k.isCovered hb hs hsg).mp hp).2
    have hx := k.explains hb hs hsg hσ
    have hfit : Fits r c b (known r c g) (extend g σ) := by
      refine ⟨fun q hq hk => ?_, fun n hn => (hx n ((k.reads hb hs hsg).mp hn)).2⟩
      by_cases hO : q ∈ O
      · rw [(hx q hO).1, openable_safe hs k.openable q hO]
      · obtain ⟨h1, h2⟩ := k.mine11 hb hs hsg hq hO (mem_known.mp hk).2
        rw [h2]
        simp [extend, h1]
    have := h _ hfit
    unfold extend at this
    simpa [h10] using this

theorem KInv.tiedB {S : Sys} (hS : SysFor r c g S) (he : EqsOf g S) (hK : known r c g ⊆ C) : ∀ B ∈ S, TiedB r c b C B := by
  intro B hB
  refine ⟨hS.good.rect B hB, hS.sat hb hs hsg k B hB, fun p hp => ?_, fun row hr => ?_⟩
  · exact ((k.covered_iff hb hs hsg).mp ((hS.cells p).mp (mem_sysCells.mpr ⟨B, hB, hp⟩)).1).1
  · obtain ⟨n, n1, n2, n3⟩ := he.row B hB row hr
    have hn := (k.number_iff hb hs hsg).mp n1
    refine ⟨n, ⟨hn.1, hK hn.2.1, hn.2.2⟩, n2, fun t ht hnt => ?_⟩
    by_cases h1 : t ∈ known r c g
    · exact .inl (hK h1)
    · exact .inr (n3 t ((k.covered_iff hb hs hsg).mpr ⟨ht, h1⟩) hnt)

/-- nothing found by the two solvers: the knowledge is settled -/
theorem KInv.settled {S S1 : Sys} (hS : SysFor r c g S) (he : EqsOf g S) (hq : ∀ B ∈ S, ∀ row ∈ B.rows, ∀ v, ¬ Trig v row)
    (hS1 : SysFor r c g S1) (he1 : EqsOf g S1)
    (hq1 : ∀ B ∈ S1, ∀ i j, j < i → i < B.rows.length → (minusPair B i j).1 = [] ∧ (minusPair B i j).2 = []) :
    Settled r c b (known r c g) := by
  have hone : ∀ (v : Bool) (q : Pos), ReadsAt r c b (known r c g) q →
      (∀ t ∈ grid r c, Near q t → t ∈ known r c g ∨ layout b t = v) → ∀ t ∈ grid r c, Near q t → t ∈ known r c g := by
    intro v q hqr hall t ht hnt
    by_contra htk
    obtain ⟨B, hB, row, hr, h1, h2⟩ := he.all q t ((k.number_iff hb hs hsg).mpr hqr)
      ((k.covered_iff hb hs hsg).mpr ⟨ht, htk⟩) hnt
    refine hq B hB row hr v (trig_of_layout (hS.sat hb hs hsg k B hB) hr h1 fun t' ht' hn' => ?_)
    have hcov := (k.covered_iff hb hs hsg).mp ((hS.cells t').mp (mem_sysCells.mpr ⟨B, hB, ht'⟩)).1
    exact (hall t' hcov.1 hn').resolve_left hcov.2
  refine ⟨hone, fun q q' hqr hqr' hm hsf t ht htx => ?_⟩
  by_contra htk
  by_cases hu : ∃ u ∈ grid r c, u ∉ known r c g ∧ Near q u ∧ Near q' u
  · obtain ⟨u, u1, u2, u3, u4⟩ := hu
    have hucov := (k.covered_iff hb hs hsg).mpr ⟨u1, u2⟩
    obtain ⟨B, hB, row, hr, a1, a2⟩ := he1.all q u ((k.number_iff hb hs hsg).mpr hqr) hucov u3
    obtain ⟨B', hB', row', hr', a1', a2'⟩ := he1.all q' u ((k.number_iff hb hs hsg).mpr hqr') hucov u4
    obtain rfl := block_unique hS1.good.nodup hB hB' (a2 u hucov u3) (a2' u hucov u4)
    have htcov := (k.covered_iff hb hs hsg).mpr ⟨ht, htk⟩
    have htB : t ∈ B.x := by
      by_cases h1 : Near q t
      · exact a2 t htcov h1
      · exact a2' t htcov (by tauto)
    have hcov : ∀ t ∈ B.x, t ∈ grid r c ∧ t ∉ known r c g := fun t' ht' =>
      (k.covered_iff hb hs hsg).mp ((hS1.cells t').mp (mem_sysCells.mpr ⟨B, hB, ht'⟩)).1
    have hm' : ∀ t ∈ B.x, Near q t → ¬ Near q' t → layout b t = true := fun t' ht' h1 h2 =>
      (hm t' (hcov t' ht').1 h1 h2).resolve_left (hcov t' ht').2
    have hs' : ∀ t ∈ B.x, Near q' t → ¬ Near q t → layout b t = false := fun t' ht' h1 h2 =>
      (hsf t' (hcov t' ht').1 h1 h2).resolve_left (hcov t' ht').2
    obtain ⟨i, hi, ei⟩ := row_index hr
    obtain ⟨j, hj, ej⟩ := row_index hr'
    have hsat := hS1.sat hb hs hsg k B hB
    have h01 := hS1.good.rect B hB
    rcases lt_trichotomy i j with hij | hij | hij
    · exact minusPair_hits h01 hsat hj hi (q := q') (q' := q) (by rw [ej]; exact a1') (by rw [ei]; exact a1)
        (a2 u hucov u3) u4 u3 false hs' hm' htB (fun h => htx h.symm) (hq1 B hB j i hij hj)
    · subst hij
      rw [ei] at ej
      subst ej
      obtain ⟨kk, hk, rfl⟩ := List.getElem_of_mem htB
      have e : (B.x.map (coeff q))[kk]? = (B.x.map (coeff q'))[kk]? := by rw [← a1, a1']
      rw [List.getElem?_map, List.getElem?_map, List.getElem?_eq_getElem hk] at e
      simp only [Option.map_some, Option.some.injEq] at e
      apply htx
      rw [← coeff_eq_one, ← coeff_eq_one, e]
    · exact minusPair_hits h01 hsat hi hj (q := q) (q' := q') (by rw [ei]; exact a1) (by rw [ej]; exact a1')
        (a2 u hucov u3) u3 u4 true hm' hs' htB htx (hq1 B hB i j hij hi)
  · have hno : ∀ u ∈ grid r c, u ∉ known r c g → ¬ (Near q u ∧ Near q' u) := fun u h1 h2 h3 => hu ⟨u, h1, h2, h3.1, h3.2⟩
    by_cases h1 : Near q t
    · refine htk (hone true q hqr (fun t' ht' hn' => ?_) t ht h1)
      by_cases h2 : t' ∈ known r c g
      · exact .inl h2
      · exact hm t' ht' hn' fun h3 => hno t' ht' h2 ⟨hn', h3⟩
    · refine htk (hone false q' hqr' (fun t' ht' hn' => ?_) t ht (by tauto))
      by_cases h2 : t' ∈ known r c g
      · exact .inl h2
      · exact hsf t' ht' hn' fun h3 => hno t' ht' h2 ⟨h3, hn'⟩

theorem KInv.tooLarge_iff {S : Sys} (hS : SysFor r c g S) (he : EqsOf g S) :
    TooLarge r c b (known r c g) ↔ ∃ B ∈ S, ENUM_LIMIT < B.x.length := by
  classical
  have key : ∀ B ∈ S, ∀ p ∈ B.x, ((grid r c).filter fun q => Tied r c b (known r c g) p q).card = B.x.length := by
    intro B hB p hp
    have hnd : B.x.Nodup := (block_enumOK hS ⟨_, hS.sat hb hs hsg k⟩ B hB).nodup
    rw [← List.toFinset_card_of_nodup hnd]
    congr 1
    ext q
    have hcov := ((hS.cells p).mp (mem_sysCells.mpr ⟨B, hB, hp⟩)).1
    have h1 := he.block hS.good.nodup hB hp hcov q
    rw [k.tied_iff hb hs hsg] at h1
    rw [Finset.mem_filter, List.mem_toFinset, h1]
    constructor
    · exact fun h => h.2
    · intro h
      exact ⟨((k.covered_iff hb hs hsg).mp ((hS.cells q).mp (mem_sysCells.mpr ⟨B, hB, h⟩)).1).1, h⟩
  constructor
  · rintro ⟨p, hp, hl⟩
    obtain ⟨B, hB, hpB⟩ := mem_sysCells.mp ((hS.cells p).mpr ((k.edge_iff hb hs hsg).mpr hp))
    refine ⟨B, hB, ?_⟩
    have h2 := key B hB p hpB
    change 55 < _
    rw [← h2]
    convert hl
  · rintro ⟨B, hB, hl⟩
    change 55 < _ at hl
    have hne : B.x ≠ [] := by
      intro e
      rw [e] at hl
      simp at hl
    obtain ⟨p, hp⟩ := List.exists_mem_of_ne_nil _ hne
    refine ⟨p, (k.edge_iff hb hs hsg).mp ((hS.cells p).mp (mem_sysCells.mpr ⟨B, hB, hp⟩)), ?_⟩
    rw [← key B hB p hp] at hl
    convert hl

end

end Ms
