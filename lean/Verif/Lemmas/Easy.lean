import Verif.SpecEasy
import Verif.Lemmas.Rows
import Verif.Lemmas.Solvable

/-! The solvers `solve_direct` and `solve_minus`: what they find, independently of the order. -/

namespace Ms
open Spec

/-! ## nothing reported: nothing changed -/

/-- how many cells were reported -/
def Marks.size (m : Marks) : Nat := m.notMine.length + m.isMine.length

theorem reported_length (l : List (Pos × Bool)) : (reported l false).length + (reported l true).length = l.length := by
  have := (reported_perm l).length_eq
  simpa using this.symm

theorem Reports.size {m m' : Marks} {l : List (Pos × Bool)} (h : Reports m m' l) : m'.size = m.size + l.length := by
  have := reported_length l
  unfold Marks.size
  rw [h.notMine, h.isMine, List.length_append, List.length_append]
  omega

theorem push_size (m : Marks) (p : Pos) (v : Bool) : (m.push p v).size = m.size + 1 := by
  have := (Reports.push m p v).size
  simpa using this

theorem directCols_size_le (mine : Bool) (i : Nat) : ∀ (L : List Nat) (st : Block × Marks),
    st.2.size ≤ (L.foldl (directCol mine i) st).2.size := by
  intro L
  induction L with
  | nil => intro st; exact le_rfl
  | cons k L ih =>
    intro st
    rw [List.foldl_cons]
    refine le_trans ?_ (ih _)
    unfold directCol
    split
    · simp only [push_size]; omega
    · exact le_rfl

theorem directCols_same (mine : Bool) (i : Nat) : ∀ (L : List Nat) (st : Block × Marks),
    (L.foldl (directCol mine i) st).2.size = st.2.size → L.foldl (directCol mine i) st = st := by
  intro L
  induction L with
  | nil => intro st _; rfl
  | cons k L ih =>
    intro st h
    rw [List.foldl_cons] at h ⊢
    have h1 := directCols_size_le mine i L (directCol mine i st k)
    by_cases hh : st.1.hit i k = true
    · exfalso
      have : (directCol mine i st k).2.size = st.2.size + 1 := by
        unfold directCol; rw [if_pos hh]; exact push_size _ _ _
      omega
    · have e : directCol mine i st k = st := by unfold directCol; rw [if_neg hh]
      rw [e] at h ⊢
      exact ih st h

theorem directRow_quiet (mine : Bool) (B : Block) (m : Marks) (h : Block01 B) (hh : RowsHit B) {i : Nat} (hi : i < B.rows.length)
    (hs : (directRow mine (B, m) i).2.size = m.size) : ¬ Trig mine (B.rows.getD i ([], 0)) := by
  intro ht
  have hd : directRow mine (B, m) i =
      ({ ((List.range B.x.length).reverse.foldl (directCol mine i) (B, m)).1 with
          rows := ((List.range B.x.length).reverse.foldl (directCol mine i) (B, m)).1.rows.eraseIdx i },
        ((List.range B.x.length).reverse.foldl (directCol mine i) (B, m)).2) := by
    unfold directRow; rw [if_pos (by exact ht)]
  rw [hd] at hs
  have e := directCols_same mine i _ (B, m) hs
  obtain ⟨l, -, -, -, -, d5⟩ := directCols_spec mine i B.x.length B m h hi le_rfl ht (by
    intro k hk
    rw [List.getD_eq_getElem?_getD, List.getElem?_eq_none (by rw [(h _ (getD_rows_mem hi)).1]; omega)]
    rfl)
  rw [e] at d5
  obtain ⟨k, hk⟩ := hh _ (getD_rows_mem hi)
  have := d5 k
  simp only at this
  omega

theorem directRows_quiet (mine : Bool) (n : Nat) : ∀ (B : Block) (m : Marks), Block01 B → RowsHit B → n ≤ B.rows.length →
    ((List.range n).reverse.foldl (directRow mine) (B, m)).2.size = m.size →
    (List.range n).reverse.foldl (directRow mine) (B, m) = (B, m) ∧ ∀ i < n, ¬ Trig mine (B.rows.getD i ([], 0)) := by
  induction n with
  | zero => intro B m _ _ _ _; exact ⟨rfl, fun i hi => by omega⟩
  | succ n ih =>
    intro B m h hh hn hs
    rw [List.range_succ, List.reverse_append] at hs ⊢
    simp only [List.reverse_cons, List.reverse_nil, List.nil_append, List.cons_append, List.foldl_cons] at hs ⊢
    obtain ⟨l, d1, d2, d3, d4⟩ := directRow_spec mine B m h n (by omega)
    have hlen : n ≤ (directRow mine (B, m) n).1.rows.length := by
      by_cases ht : Trig mine (B.rows.getD n ([], 0))
      · rw [d3 ht]; omega
      · rw [d4 ht]; simp only; omega
    obtain ⟨l', -, e2⟩ := directRows_spec mine n (directRow mine (B, m) n).1 (directRow mine (B, m) n).2 d1.rect hlen
    have s1 := d2.size
    have s2 := e2.size
    change ((List.range n).reverse.foldl (directRow mine) (directRow mine (B, m) n)).2.size = _ at s2
    have hq := directRow_quiet mine B m h hh (i := n) (by omega) (by omega)
    rw [d4 hq] at hs ⊢
    obtain ⟨a1, a2⟩ := ih B m h hh (by omega) hs
    refine ⟨a1, fun i hi => ?_⟩
    by_cases e : i = n
    · rw [e]; exact hq
    · exact a2 i (by omega)

theorem directBlock_quiet {B : Block} {m : Marks} (h : Block01 B) (hh : RowsHit B)
    (hs : (directBlock B m).2.size = m.size) :
    directBlock B m = (B, m) ∧ ∀ row ∈ B.rows, ∀ v, ¬ Trig v row := by
  obtain ⟨l, d1, d2⟩ := directRows_spec true B.rows.length B m h le_rfl
  obtain ⟨l', e1, e2⟩ := directRows_spec false _ _ ((List.range B.rows.length).reverse.foldl (directRow true) (B, m)).2
    d1.rect le_rfl
  have s1 := d2.size
  have s2 := e2.size
  change (directBlock B m).2.size = _ at s2
  obtain ⟨a1, a2⟩ := directRows_quiet true B.rows.length B m h hh le_rfl (by omega)
  have hu : directBlock B m = (List.range B.rows.length).reverse.foldl (directRow false) (B, m) := by
    unfold directBlock
    simp only [a1]
  rw [hu] at hs
  obtain ⟨b1, b2⟩ := directRows_quiet false B.rows.length B m h hh le_rfl hs
  refine ⟨hu.trans b1, fun row hr v => ?_⟩
  obtain ⟨i, hi, rfl⟩ := List.getElem_of_mem hr
  have e : B.rows.getD i ([], 0) = B.rows[i] := by
    rw [List.getD_eq_getElem?_getD, List.getElem?_eq_getElem hi]; rfl
  rw [← e]
  cases v
  · exact b2 i hi
  · exact a2 i hi

theorem directSweep_quiet (m : Marks) : ∀ (S : Sys), (∀ B ∈ S, Block01 B) → (∀ B ∈ S, BlockCovered B) → (∀ B ∈ S, RowsHit B) →
    (∀ B ∈ S, B.rows ≠ []) → (directSweep S m).2.size = m.size →
    directSweep S m = (S, m) ∧ ∀ B ∈ S, ∀ row ∈ B.rows, ∀ v, ¬ Trig v row := by
  intro S
  induction S with
  | nil => intro _ _ _ _ _; exact ⟨rfl, by simp⟩
  | cons B S ih =>
    intro h hc hh hr hs
    obtain ⟨l, d1, d2, -, -⟩ := directSweep_spec m S (fun B hB => h B (by simp [hB])) (fun B hB => hc B (by simp [hB]))
    obtain ⟨l', e1, e2⟩ := directBlock_spec B (directSweep S m).2 (h B (by simp))
    have hst : directSweep (B :: S) m =
        (if (directBlock B (directSweep S m).2).1.rows = [] then (directSweep S m).1
          else (directBlock B (directSweep S m).2).1 :: (directSweep S m).1,
         (directBlock B (directSweep S m).2).2) := rfl
    rw [hst] at hs ⊢
    simp only at hs
    have s1 := d2.size
    have s2 := e2.size
    obtain ⟨a1, a2⟩ := ih (fun B hB => h B (by simp [hB])) (fun B hB => hc B (by simp [hB])) (fun B hB => hh B (by simp [hB]))
      (fun B hB => hr B (by simp [hB])) (by omega)
    rw [a1] at hs ⊢
    simp only at hs
    obtain ⟨b1, b2⟩ := directBlock_quiet (h B (by simp)) (hh B (by simp)) hs
    simp only [b1]
    rw [if_neg (hr B (by simp))]
    exact ⟨rfl, List.forall_mem_cons.mpr ⟨b2, a2⟩⟩

theorem minusPair_lt {B : Block} {i j k : Nat} (h : k ∈ (minusPair B i j).1 ∨ k ∈ (minusPair B i j).2) : k < B.x.length := by
  unfold minusPair at h
  simp only at h
  split at h
  · split at h
    · simp only [List.mem_filter, List.mem_range] at h; rcases h with h | h <;> exact h.1
    · split at h
      · simp only [List.mem_filter, List.mem_range] at h; rcases h with h | h <;> exact h.1
      · simp at h
  · simp at h

theorem minusPairs_mem {B : Block} (k : Nat) : (k ∈ (minusPairs B).1 ∨ k ∈ (minusPairs B).2) ↔
    ∃ i j, j < i ∧ i < B.rows.length ∧ (k ∈ (minusPair B i j).1 ∨ k ∈ (minusPair B i j).2) := by
  unfold minusPairs
  have key : ∀ (L : List (Nat × Nat)) (acc : List Nat × List Nat),
      (k ∈ (L.foldl (fun acc ij => let r := minusPair B ij.1 ij.2; (acc.1 ++ r.1, acc.2 ++ r.2)) acc).1 ∨
        k ∈ (L.foldl (fun acc ij => let r := minusPair B ij.1 ij.2; (acc.1 ++ r.1, acc.2 ++ r.2)) acc).2) ↔
      (k ∈ acc.1 ∨ k ∈ acc.2) ∨ ∃ ij ∈ L, k ∈ (minusPair B ij.1 ij.2).1 ∨ k ∈ (minusPair B ij.1 ij.2).2 := by
    intro L
    induction L with
    | nil => intro acc; simp
    | cons ij L ih =>
      intro acc
      rw [List.foldl_cons, ih]
      simp only [List.mem_append, List.exists_mem_cons_iff]
      clear ih
      generalize (∃ ij ∈ L, k ∈ (minusPair B ij.1 ij.2).1 ∨ k ∈ (minusPair B ij.1 ij.2).2) = P
      tauto
  rw [key]
  simp only [List.mem_flatMap, List.mem_map, List.mem_range, mem_rng]
  constructor
  · rintro (h | ⟨ij, ⟨i, hi, j, hj, rfl⟩, h⟩)
    · simp at h
    · exact ⟨i, j, hj, hi.2, h⟩
  · rintro ⟨i, j, h1, h2, h3⟩
    exact .inr ⟨(i, j), ⟨i, ⟨by omega, h2⟩, j, h1, rfl⟩, h3⟩

theorem sortDedup_nil {n : Nat} {l : List Nat} (h : ∀ k ∈ l, k < n) (he : sortDedup n l = []) : l = [] := by
  unfold sortDedup at he
  rw [List.filter_eq_nil_iff] at he
  cases l with
  | nil => rfl
  | cons k l =>
    have := he k (List.mem_range.mpr (h k (by simp)))
    simp at this

theorem pushes_size (f : Nat → Pos) (v : Bool) (ks : List Nat) (m : Marks) :
    (ks.foldl (fun m k => m.push (f k) v) m).size = m.size + ks.length := by
  induction ks generalizing m with
  | nil => rfl
  | cons k ks ih => rw [List.foldl_cons, ih, push_size, List.length_cons]; omega

theorem minusBlock_quiet {B : Block} {m : Marks} (hs : (minusBlock B m).2.size = m.size) :
    minusBlock B m = (B, m) ∧ ∀ i j, j < i → i < B.rows.length → (minusPair B i j).1 = [] ∧ (minusPair B i j).2 = [] := by
  unfold minusBlock at hs ⊢
  split
  · exact ⟨rfl, fun i j h1 h2 => by omega⟩
  · rename_i hlen
    rw [if_neg hlen] at hs
    have hs' : ((sortDedup B.x.length (minusPairs B).1).foldl (fun m k => m.push (B.x.getD k (0, 0)) true)
        ((sortDedup B.x.length (minusPairs B).2).foldl (fun m k => m.push (B.x.getD k (0, 0)) false) m)).size = m.size := hs
    rw [pushes_size, pushes_size] at hs'
    have hlt : ∀ k, (k ∈ (minusPairs B).1 ∨ k ∈ (minusPairs B).2) → k < B.x.length := by
      intro k hk
      obtain ⟨i, j, -, -, h3⟩ := (minusPairs_mem k).mp hk
      exact minusPair_lt h3
    have e1 : sortDedup B.x.length (minusPairs B).1 = [] := List.length_eq_zero_iff.mp (by omega)
    have e2 : sortDedup B.x.length (minusPairs B).2 = [] := List.length_eq_zero_iff.mp (by omega)
    have f1 := sortDedup_nil (fun k hk => hlt k (.inl hk)) e1
    have f2 := sortDedup_nil (fun k hk => hlt k (.inr hk)) e2
    refine ⟨?_, fun i j h1 h2 => ?_⟩
    · simp only [e1, e2]
      simp [minusApply]
    · constructor
      · rw [List.eq_nil_iff_forall_not_mem]
        intro k hk
        have := (minusPairs_mem k).mpr ⟨i, j, h1, h2, .inl hk⟩
        rw [f1, f2] at this
        simp at this
      · rw [List.eq_nil_iff_forall_not_mem]
        intro k hk
        have := (minusPairs_mem k).mpr ⟨i, j, h1, h2, .inr hk⟩
        rw [f1, f2] at this
        simp at this

theorem minusSweep_quiet (m : Marks) : ∀ (S : Sys), (∀ B ∈ S, Block01 B) → (∀ B ∈ S, BlockCovered B) → (∃ σ, Solves σ S) →
    (∀ B ∈ S, RowsHit B) → (minusSweep S m).2.size = m.size →
    minusSweep S m = (S, m) ∧ ∀ B ∈ S, ∀ i j, j < i → i < B.rows.length → (minusPair B i j).1 = [] ∧ (minusPair B i j).2 = [] := by
  intro S
  induction S with
  | nil => intro _ _ _ _ _; exact ⟨rfl, by simp⟩
  | cons B S ih =>
    intro h hc ⟨σ, hσ⟩ hh hs
    obtain ⟨l, d1, d2⟩ := minusSweep_spec m S (fun B hB => h B (by simp [hB])) (fun B hB => hc B (by simp [hB]))
      ⟨σ, fun B hB => hσ B (by simp [hB])⟩
    obtain ⟨l', e1, e2⟩ := minusBlock_spec (h B (by simp)) (minusSweep S m).2 ⟨σ, hσ B (by simp)⟩
    have hst : minusSweep (B :: S) m =
        (if ¬ B.rows.length ≤ 1 ∧ (minusBlock B (minusSweep S m).2).1.x = [] then (minusSweep S m).1
          else (minusBlock B (minusSweep S m).2).1 :: (minusSweep S m).1,
         (minusBlock B (minusSweep S m).2).2) := rfl
    rw [hst] at hs ⊢
    simp only at hs
    have s1 := d2.size
    have s2 := e2.size
    obtain ⟨a1, a2⟩ := ih (fun B hB => h B (by simp [hB])) (fun B hB => hc B (by simp [hB]))
      ⟨σ, fun B hB => hσ B (by simp [hB])⟩ (fun B hB => hh B (by simp [hB])) (by omega)
    rw [a1] at hs ⊢
    simp only at hs
    obtain ⟨b1, b2⟩ := minusBlock_quiet hs
    simp only [b1]
    have hx : ¬ (¬ B.rows.length ≤ 1 ∧ B.x = []) := by
      rintro ⟨h1, h2⟩
      have h0 : 0 < B.rows.length := by omega
      obtain ⟨k, hk⟩ := hh B (by simp) _ (getD_rows_mem h0)
      have := hit_lt (h B (by simp)) h0 hk
      rw [h2] at this
      simp at this
    rw [if_neg hx]
    exact ⟨rfl, List.forall_mem_cons.mpr ⟨b2, a2⟩⟩

end Ms
