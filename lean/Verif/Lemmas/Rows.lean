import Verif.Lemmas.Chain
import Verif.Lemmas.PossBoard
import Verif.SpecPySolve

/-! The equations of a board, one for each number. -/

namespace Ms
open Spec

theorem segments_rows (g : Board) (fuel : Nat) : ∀ (nums : List Pos), (∀ p ∈ nums, ∃ q, q ∈ unknownsOf g p) →
    (∀ p ∈ nums, IsNumber g p) → nums.length ≤ fuel → ∀ S, segments g fuel nums = some S →
    ∀ B ∈ S, ∃ ns : List Pos, B.rows = ns.map (fun n => (B.x.map (coeff n), rhsOf g n)) ∧ (∀ n ∈ ns, n ∈ nums) ∧
      ∀ n ∈ nums, (∃ q ∈ unknownsOf g n, q ∈ B.x) → n ∈ ns := by
  induction fuel with
  | zero =>
    intro nums hu hnum hf S hS
    have : nums = [] := List.length_eq_zero_iff.mp (by omega)
    subst this
    rw [segments] at hS
    obtain rfl := Option.some.inj hS
    simp
  | succ fuel ih =>
    intro nums hu hnum hf S hS
    cases nums with
    | nil =>
      rw [segments] at hS
      obtain rfl := Option.some.inj hS
      simp
    | cons p rest =>
      have h0 : SegOK g ⟨unknownsOf g p, [rhsOf g p], [p], [p]⟩ :=
        ⟨rfl, nodup_unknownsOf g p, fun q => by simp⟩
      obtain ⟨rest', s, l1, l2, l3, l4, l5, l6⟩ := segLoop_spec g (rest.length + 2) rest _ h0 (by
        intro e he; left; exact he) (by simp; omega)
      simp only at l3 l5
      have hmem : ∀ q, q ∈ p :: rest ↔ q ∈ rest' ∨ q ∈ s.nums := by
        intro q
        have := l3.mem_iff (a := q)
        simp only [List.mem_append, List.mem_singleton] at this
        rw [List.mem_cons, ← this]; tauto
      rw [segments, l1] at hS
      simp only [Option.bind_eq_bind, Option.bind_some] at hS
      cases ht : segments g fuel rest' with
      | none => rw [ht] at hS; simp at hS
      | some tl =>
        rw [ht] at hS
        simp only [Option.bind_some, Option.pure_def, Option.some.injEq] at hS
        subst hS
        have hlen : rest'.length ≤ fuel := by
          rw [List.length_cons] at hf
          omega
        have hxt : ∀ B ∈ tl, ∀ q ∈ B.x, ∃ e ∈ rest', q ∈ unknownsOf g e := by
          intro B hB q hq
          obtain ⟨tl', t1, t2⟩ := segments_spec g fuel rest' (fun q hq => hu q ((hmem q).mpr (.inl hq)))
            (fun q hq => hnum q ((hmem q).mpr (.inl hq))) hlen
          rw [ht] at t1
          obtain rfl := Option.some.inj t1
          exact (t2.cells q).mp (List.mem_flatMap.mpr ⟨B, hB, hq⟩)
        refine List.forall_mem_cons.mpr ⟨⟨s.nums, ?_, fun n hn => (hmem n).mpr (.inr hn), ?_⟩, fun B hB => ?_⟩
        · rw [segBlock_eq l2]
        · rintro n hn ⟨q, hq, hqx⟩
          rcases (hmem n).mp hn with he | he
          · exfalso
            have hqx : q ∈ s.x := hqx
            obtain ⟨e', he', hq'⟩ := (l2.x q).mp hqx
            have := l6 e' he' n he
            rw [shareUnknown_iff.mpr ⟨q, hq, hq'⟩] at this
            simp at this
          · exact he
        · obtain ⟨ns, n1, n2, n3⟩ := ih rest' (fun q hq => hu q ((hmem q).mpr (.inl hq))) (fun q hq => hnum q ((hmem q).mpr (.inl hq))) hlen tl ht B hB
          refine ⟨ns, n1, fun n hn => (hmem n).mpr (.inl (n2 n hn)), ?_⟩
          rintro n hn ⟨q, hq, hqx⟩
          rcases (hmem n).mp hn with he | he
          · exact n3 n he ⟨q, hq, hqx⟩
          · exfalso
            obtain ⟨e', he', hq'⟩ := hxt B hB q hqx
            have := l6 n he e' he'
            rw [shareUnknown_iff.mpr ⟨q, hq', hq⟩] at this
            simp at this

/-- The equations of a block: one for each number next to its cells. -/
theorem refreshMatrixs_rows {g : Board} {S : Sys} (h : refreshMatrixs g = some S) {B : Block} (hB : B ∈ S) :
    ∃ ns : List Pos, B.rows = ns.map (fun n => (B.x.map (coeff n), rhsOf g n)) ∧ (∀ n ∈ ns, IsNumber g n) ∧
      ∀ n, IsNumber g n → (∃ q ∈ B.x, IsCovered g q ∧ Near n q) → n ∈ ns := by
  obtain ⟨ns, n1, n2, n3⟩ := segments_rows g _ _ (fun p hp => by
    obtain ⟨-, q, h1, h2⟩ := mem_numberCells.mp hp
    exact ⟨q, mem_unknownsOf.mpr ⟨h1, h2⟩⟩) (fun p hp => (mem_numberCells.mp hp).1) le_rfl S h B hB
  refine ⟨ns, n1, fun n hn => (mem_numberCells.mp (n2 n hn)).1, ?_⟩
  rintro n hn ⟨q, hq, h1, h2⟩
  exact n3 n (mem_numberCells.mpr ⟨hn, q, h1, h2⟩) ⟨q, mem_unknownsOf.mpr ⟨h1, h2⟩, hq⟩

theorem twin_board {g : Board} {S : Sys} (h : refreshMatrixs g = some S) {B : Block} (hB : B ∈ S) {p : Pos} (hp : p ∈ B.x) :
    HasTwin B p ↔ TwinCell g p := by
  obtain ⟨S', s1, s2⟩ := refreshMatrixs_spec g
  rw [h] at s1
  obtain rfl := Option.some.inj s1
  obtain ⟨ns, n1, n2, n3⟩ := refreshMatrixs_rows h hB
  have hcov : ∀ q ∈ B.x, ∃ n, IsNumber g n ∧ IsCovered g q ∧ Near n q := by
    intro q hq
    obtain ⟨n, h1, h2⟩ := (s2.cells q).mp (List.mem_flatMap.mpr ⟨B, hB, hq⟩)
    exact ⟨n, (mem_numberCells.mp h1).1, (mem_unknownsOf.mp h2).1, (mem_unknownsOf.mp h2).2⟩
  have hnd : B.x.Nodup := by
    have := s2.nodup
    unfold sysCells at this
    rw [List.nodup_flatMap] at this
    exact this.1 B hB
  have hget : ∀ n k, k < B.x.length → (B.x.map (coeff n)).getD k 0 = coeff n (B.x.getD k (0, 0)) := by
    intro n k hk
    rw [List.getD_eq_getElem?_getD, List.getD_eq_getElem?_getD, List.getElem?_map, List.getElem?_eq_getElem hk]
    simp
  have hceq : ∀ n a b, coeff n a = coeff n b ↔ (Near n a ↔ Near n b) := by
    intro n a b
    rw [← coeff_eq_one, ← coeff_eq_one]
    rcases coeff01 n a with h1 | h1 <;> rcases coeff01 n b with h2 | h2 <;> simp [h1, h2]
  constructor
  · rintro ⟨i, j, hi, hj, hij, hpi, hr⟩
    have hqx : B.x.getD j (0, 0) ∈ B.x := getD_mem_of_lt _ hj
    have hrow : ∀ n ∈ ns, Near n p ↔ Near n (B.x.getD j (0, 0)) := by
      intro n hn
      have := hr (B.x.map (coeff n), rhsOf g n) (by rw [n1]; exact List.mem_map.mpr ⟨n, hn, rfl⟩)
      simp only at this
      rw [hget n i hi, hget n j hj, hpi, hceq] at this
      exact this
    refine ⟨B.x.getD j (0, 0), ?_, ?_, fun n hn => ⟨fun h1 => ?_, fun h1 => ?_⟩⟩
    · intro hc
      rw [← hpi] at hc
      rw [List.getD_eq_getElem?_getD, List.getD_eq_getElem?_getD, List.getElem?_eq_getElem hi, List.getElem?_eq_getElem hj] at hc
      exact hij ((hnd.getElem_inj_iff).mp hc).symm
    · obtain ⟨n, -, h2, -⟩ := hcov _ hqx
      exact h2
    · obtain ⟨n', -, h2, -⟩ := hcov p hp
      exact (hrow n (n3 n hn ⟨p, hp, h2, h1⟩)).mp h1
    · obtain ⟨n', -, h2, -⟩ := hcov _ hqx
      exact (hrow n (n3 n hn ⟨_, hqx, h2, h1⟩)).mpr h1
  · rintro ⟨q, hqp, hq, hn⟩
    obtain ⟨n, h1, h2, h3⟩ := hcov p hp
    have hqx : q ∈ B.x := by
      obtain ⟨B', hB', hl⟩ := s2.linked n (mem_numberCells.mpr ⟨h1, p, h2, h3⟩)
      have e1 := hl p (mem_unknownsOf.mpr ⟨h2, h3⟩)
      have e2 := hl q (mem_unknownsOf.mpr ⟨hq, (hn n h1).mp h3⟩)
      have := (shares_iff_block s2 hB hp).mp (s2.conn B' hB' p e1 q e2)
      exact this
    obtain ⟨i, hi, hpi⟩ := List.getElem_of_mem hp
    obtain ⟨j, hj, hqj⟩ := List.getElem_of_mem hqx
    have e1 : B.x.getD i (0, 0) = p := by rw [List.getD_eq_getElem?_getD, List.getElem?_eq_getElem hi]; exact hpi
    have e2 : B.x.getD j (0, 0) = q := by rw [List.getD_eq_getElem?_getD, List.getElem?_eq_getElem hj]; exact hqj
    refine ⟨i, j, hi, hj, ?_, e1, fun r hr => ?_⟩
    · rintro rfl
      exact hqp (e2.symm.trans e1)
    · rw [n1] at hr
      obtain ⟨n, hns, rfl⟩ := List.mem_map.mp hr
      simp only
      rw [hget n i hi, hget n j hj, e1, e2, hceq]
      exact hn n (n2 n hns)

end Ms
