import Verif.Lemmas.Game

namespace Ms
open Spec

namespace MSB

/-- weight of a stack entry -/
def wt (s : MSB) (p : Pos) : Nat := if s.bd p = 0 then 9 else 1

/-- zeros not yet marked -/
def unmarked (s : MSB) (marks : List Pos) : Finset Pos :=
  (grid s.row s.column).filter fun q => s.bd q = 0 ∧ q ∉ marks

/-- the first zero on the stack exists and is unmarked -/
def topFresh (s : MSB) (marks : List Pos) : List Pos → Bool
  | [] => false
  | p :: st => if s.bd p = 0 then decide (p ∉ marks) else topFresh s marks st

def opPot (s : MSB) (st marks : List Pos) : Nat :=
  128 * (s.unmarked marks).card + (st.map s.wt).sum - if s.topFresh marks st then 64 else 0

theorem topFresh_mem {s : MSB} {marks : List Pos} : ∀ {st : List Pos}, s.topFresh marks st = true →
    ∃ q ∈ st, s.bd q = 0 ∧ q ∉ marks := by
  intro st
  induction st with
  | nil => simp [topFresh]
  | cons p st ih =>
    unfold topFresh
    split
    · next h => intro h'; exact ⟨p, by simp, h, by simpa using h'⟩
    · intro h'; obtain ⟨q, h1, h2⟩ := ih h'; exact ⟨q, by simp [h1], h2⟩

theorem topFresh_append {s : MSB} {marks : List Pos} : ∀ {l : List Pos} (st : List Pos),
    (∀ q ∈ l, q ∉ marks) → (∃ q ∈ l, s.bd q = 0) → s.topFresh marks (l ++ st) = true := by
  intro l
  induction l with
  | nil => simp
  | cons p l ih =>
    intro st h1 h2
    simp only [List.cons_append, topFresh]
    split
    · simp [h1 p (by simp)]
    · next hp =>
      apply ih st (fun q hq => h1 q (by simp [hq]))
      obtain ⟨q, hq, hz⟩ := h2
      rcases List.mem_cons.mp hq with rfl | hq
      · exact absurd hz hp
      · exact ⟨q, hq, hz⟩

theorem sum_wt_le (s : MSB) (l : List Pos) (hl : l.length ≤ 8) : (l.map s.wt).sum ≤ 72 := by
  have : (l.map s.wt).sum ≤ l.length * 9 := by
    clear hl
    induction l with
    | nil => simp
    | cons a l ih =>
      simp only [List.map_cons, List.sum_cons, List.length_cons]
      have : s.wt a ≤ 9 := by unfold wt; split <;> omega
      omega
  omega

theorem sum_wt_nozero (s : MSB) (l : List Pos) (hl : l.length ≤ 8) (hz : ¬ ∃ q ∈ l, s.bd q = 0) :
    (l.map s.wt).sum ≤ 8 := by
  have : (l.map s.wt).sum = l.length := by
    clear hl
    induction l with
    | nil => simp
    | cons a l ih =>
      simp only [List.map_cons, List.sum_cons, List.length_cons]
      have : s.wt a = 1 := by
        unfold wt; rw [if_neg]; intro h; exact hz ⟨a, by simp, h⟩
      have := ih (fun ⟨q, hq, h⟩ => hz ⟨q, by simp [hq], h⟩)
      omega
  omega

/-- the neighbours pushed -/
def opPush (s : MSB) (p : Pos) (marks : List Pos) : List Pos :=
  ((block s.row s.column p.1 p.2).filter fun q =>
    decide (¬ (p.1 = q.1 ∧ p.2 = q.2)) && decide (q ∉ marks)).reverse

theorem mem_opPush {s : MSB} {p q : Pos} {marks : List Pos} :
    q ∈ s.opPush p marks ↔ q ∈ grid s.row s.column ∧ Adj p q ∧ q ∉ marks := by
  unfold opPush
  simp only [List.mem_reverse, List.mem_filter, mem_block_near, Bool.and_eq_true, decide_eq_true_eq, Adj, Ne]
  have : (p.1 = q.1 ∧ p.2 = q.2) ↔ p = q := Prod.ext_iff.symm
  rw [this]
  tauto

theorem length_opPush {s : MSB} {p : Pos} (hp : p ∈ grid s.row s.column) (marks : List Pos) :
    (s.opPush p marks).length ≤ 8 := by
  unfold opPush
  rw [List.length_reverse]
  have hmem : p ∈ block s.row s.column p.1 p.2 := mem_block_near.mpr ⟨hp, near_refl p⟩
  have hl : ((block s.row s.column p.1 p.2).filter fun q =>
    decide (¬ (p.1 = q.1 ∧ p.2 = q.2)) && decide (q ∉ marks)).length <
      (block s.row s.column p.1 p.2).length := by
    apply List.length_filter_lt_length_iff_exists.mpr
    exact ⟨p, hmem, by simp⟩
  have := length_block_le s.row s.column p.1 p.2
  omega

theorem unmarked_pos {s : MSB} {marks : List Pos} {q : Pos} (hq : q ∈ grid s.row s.column)
    (h0 : s.bd q = 0) (hm : q ∉ marks) : 0 < (s.unmarked marks).card :=
  Finset.card_pos.mpr ⟨q, Finset.mem_filter.mpr ⟨hq, h0, hm⟩⟩

theorem opPot_skip {s : MSB} {p : Pos} {st marks : List Pos}
    (hst : ∀ q ∈ st, q ∈ grid s.row s.column) (h : s.bd p ≠ 0) :
    s.opPot st marks < s.opPot (p :: st) marks := by
  unfold opPot
  have h1 : s.topFresh marks (p :: st) = s.topFresh marks st := by simp [topFresh, h]
  rw [h1]
  simp only [List.map_cons, List.sum_cons]
  have : s.wt p = 1 := by simp [wt, h]
  split
  · next hf =>
    obtain ⟨q, hq, h0, hm⟩ := topFresh_mem hf
    have := unmarked_pos (hst q hq) h0 hm
    omega
  · omega

theorem opPot_push {s : MSB} {p : Pos} {st marks : List Pos} (hp : p ∈ grid s.row s.column)
    (h : s.bd p = 0) :
    s.opPot (s.opPush p (p :: marks) ++ st) (p :: marks) < s.opPot (p :: st) marks := by
  have hlen := length_opPush hp (p :: marks)
  have hw : s.wt p = 9 := by simp [wt, h]
  by_cases hm : p ∈ marks
  · have hu : s.unmarked (p :: marks) = s.unmarked marks := by
      unfold unmarked
      apply Finset.filter_congr
      intro q _
      simp only [List.mem_cons, not_or]
      constructor
      · rintro ⟨a, _, b⟩; exact ⟨a, b⟩
      · rintro ⟨a, b⟩; exact ⟨a, fun e => b (e ▸ hm), b⟩
    have hf : s.topFresh marks (p :: st) = false := by simp [topFresh, h, hm]
    unfold opPot
    rw [hu, hf]
    simp only [List.map_cons, List.sum_cons, List.map_append, List.sum_append, hw]
    by_cases hz : ∃ q ∈ s.opPush p (p :: marks), s.bd q = 0
    · have h1 := sum_wt_le s _ hlen
      have h2 := topFresh_append (s := s) (marks := p :: marks) st (fun q hq => (mem_opPush.mp hq).2.2) hz
      rw [h2]
      obtain ⟨q, hq, h0⟩ := hz
      have := unmarked_pos (marks := marks) (mem_opPush.mp hq).1 h0
        (fun hh => (mem_opPush.mp hq).2.2 (by simp [hh]))
      simp only [if_true]
      simp only [Bool.false_eq_true, if_false]
      omega
    · have h1 := sum_wt_nozero s _ hlen hz
      simp only [Bool.false_eq_true, if_false]
      omega
  · have hu : s.unmarked (p :: marks) = (s.unmarked marks).erase p := by
      ext q
      unfold unmarked
      rw [Finset.mem_erase, Finset.mem_filter, Finset.mem_filter]
      simp only [List.mem_cons, not_or]
      tauto
    have hpu : p ∈ s.unmarked marks := Finset.mem_filter.mpr ⟨hp, h, hm⟩
    have hf : s.topFresh marks (p :: st) = true := by simp [topFresh, h, hm]
    unfold opPot
    rw [hu, hf, Finset.card_erase_of_mem hpu]
    simp only [List.map_cons, List.sum_cons, List.map_append, List.sum_append, hw]
    have h1 := sum_wt_le s _ hlen
    have := unmarked_pos hp h hm
    simp only [if_true]
    omega

/-- invariant of the loop of `cell_is_op_completed` -/
structure OInv (s : MSB) (p : Pos) (m0 st marks : List Pos) : Prop where
  stk : ∀ q ∈ st, q ∈ grid s.row s.column ∧ (s.bd q = 0 → Linked (zeros s.board) p q)
  mks : ∀ q ∈ marks, q ∈ m0 ∨ (q ∈ zeros s.board ∧ Linked (zeros s.board) p q ∧ s.gb q ≠ 11)
  sub : ∀ q ∈ m0, q ∈ marks
  cl : ∀ m ∈ marks, m ∉ m0 → ∀ z ∈ zeros s.board, Near m z → z ∈ marks ∨ z ∈ st
  p0 : p ∈ marks ∨ p ∈ st

theorem opLoop_spec {s : MSB} (hdim : vcells s.board = grid s.row s.column) {p : Pos} {m0 : List Pos}
    (hp0 : s.bd p = 0) :
    ∀ (fuel : Nat) (st marks : List Pos), OInv s p m0 st marks → s.opPot st marks ≤ fuel →
    ∃ b M, opCompletedLoop s fuel st marks = some (b, M) ∧
      (b = true → OInv s p m0 [] M) ∧
      (b = false → (∃ z ∈ zeros s.board, Linked (zeros s.board) p z ∧ s.gb z = 11) ∧
        (∀ q ∈ M, q ∈ m0 ∨ (q ∈ zeros s.board ∧ Linked (zeros s.board) p q)) ∧ ∀ q ∈ m0, q ∈ M) := by
  intro fuel
  induction fuel with
  | zero =>
    intro st marks h hf
    cases st with
    | nil => exact ⟨true, marks, rfl, fun _ => h, by simp⟩
    | cons q st =>
      exfalso
      have hq := (h.stk q (by simp)).1
      by_cases h0 : s.bd q = 0
      · have := opPot_push (st := st) (marks := marks) hq h0; omega
      · have := opPot_skip (st := st) (marks := marks) (fun a ha => (h.stk a (by simp [ha])).1) h0; omega
  | succ fuel ih =>
    intro st marks h hf
    cases st with
    | nil => exact ⟨true, marks, rfl, fun _ => h, by simp⟩
    | cons q st =>
      obtain ⟨hq, hql⟩ := h.stk q (by simp)
      by_cases h0 : s.bd q = 0
      · have hqz : q ∈ zeros s.board := Finset.mem_filter.mpr ⟨hdim ▸ hq, h0⟩
        have e0 : ¬ s.bd q > 0 := by omega
        by_cases hfl : s.gb q = 11
        · refine ⟨false, marks, ?_, by simp, fun _ => ⟨⟨q, hqz, hql h0, hfl⟩, ?_, h.sub⟩⟩
          · simp [opCompletedLoop, h0, hfl]
          · intro a ha
            rcases h.mks a ha with h | h
            · exact .inl h
            · exact .inr ⟨h.1, h.2.1⟩
        · have hpot := opPot_push (st := st) (marks := marks) hq h0
          have hI : OInv s p m0 (s.opPush q (q :: marks) ++ st) (q :: marks) := by
            refine ⟨?_, ?_, ?_, ?_, ?_⟩
            · intro a ha
              rcases List.mem_append.mp ha with ha | ha
              · obtain ⟨h1, h2, -⟩ := mem_opPush.mp ha
                refine ⟨h1, fun ha0 => (hql h0).tail ⟨hqz, ?_, h2.1⟩⟩
                exact Finset.mem_filter.mpr ⟨hdim ▸ h1, ha0⟩
              · exact h.stk a (by simp [ha])
            · intro a ha
              rcases List.mem_cons.mp ha with rfl | ha
              · exact .inr ⟨hqz, hql h0, hfl⟩
              · exact h.mks a ha
            · intro a ha; simp [h.sub a ha]
            · intro m hm hm0 z hz hn
              by_cases hzm : z ∈ q :: marks
              · exact .inl hzm
              · right
                rcases List.mem_cons.mp hm with rfl | hm
                · apply List.mem_append_left
                  refine mem_opPush.mpr ⟨hdim ▸ (Finset.mem_filter.mp hz).1, ⟨hn, ?_⟩, hzm⟩
                  intro e; exact hzm (by simp [e])
                · rcases h.cl m hm hm0 z hz hn with h | h
                  · exact absurd (by simp [h]) hzm
                  · rcases List.mem_cons.mp h with rfl | h
                    · exact absurd (by simp) hzm
                    · simp [h]
            · rcases h.p0 with h | h
              · exact .inl (by simp [h])
              · rcases List.mem_cons.mp h with rfl | h
                · exact .inl (by simp)
                · exact .inr (by simp [h])
          obtain ⟨b, M, e, h1, h2⟩ := ih _ _ hI (by omega)
          refine ⟨b, M, ?_, h1, h2⟩
          rw [opCompletedLoop, if_neg e0, if_pos h0, if_neg hfl]
          exact e
      · have hpot := opPot_skip (st := st) (marks := marks) (fun a ha => (h.stk a (by simp [ha])).1) h0
        have hI : OInv s p m0 st marks := by
          refine ⟨fun a ha => h.stk a (by simp [ha]), h.mks, h.sub, ?_, ?_⟩
          · intro m hm hm0 z hz hn
            rcases h.cl m hm hm0 z hz hn with h | h
            · exact .inl h
            · rcases List.mem_cons.mp h with rfl | h
              · exact absurd (Finset.mem_filter.mp hz).2 h0
              · exact .inr h
          · rcases h.p0 with h' | h'
            · exact .inl h'
            · rcases List.mem_cons.mp h' with rfl | h'
              · exact absurd hp0 h0
              · exact .inr h'
        obtain ⟨b, M, e, h1, h2⟩ := ih _ _ hI (by omega)
        refine ⟨b, M, ?_, h1, h2⟩
        rw [opCompletedLoop]
        split <;> exact e

/-- The behaviour of `cell_is_op_completed` called on a zero. -/
theorem cellIsOpCompleted_spec {s : MSB} (hdim : vcells s.board = grid s.row s.column) {p : Pos}
    (hp : p ∈ zeros s.board) (m0 : List Pos) :
    ∃ b M, s.cellIsOpCompleted p m0 = some (b, M) ∧ (∀ q ∈ m0, q ∈ M) ∧
      (∀ q ∈ M, q ∈ m0 ∨ (q ∈ zeros s.board ∧ Linked (zeros s.board) p q)) ∧
      ((∀ z ∈ zeros s.board, Linked (zeros s.board) p z → s.gb z ≠ 11) → b = true) ∧
      ((∀ q ∈ m0, ¬ Linked (zeros s.board) p q) → b = true →
        ∀ z, Linked (zeros s.board) p z → z ∈ M ∧ s.gb z ≠ 11) := by
  have hp' := Finset.mem_filter.mp hp
  have h0 : OInv s p m0 [p] m0 := by
    refine ⟨?_, fun q hq => .inl hq, fun q hq => hq, fun m hm hm' => absurd hm hm', .inr (by simp)⟩
    intro q hq
    simp only [List.mem_singleton] at hq
    subst hq
    exact ⟨hdim ▸ hp'.1, fun _ => .refl⟩
  have hpot : s.opPot [p] m0 ≤ 128 * (s.row * s.column) + 128 := by
    unfold opPot
    have h1 : (s.unmarked m0).card ≤ s.row * s.column := by
      rw [← card_grid]; exact Finset.card_le_card (Finset.filter_subset _ _)
    have h2 : ([p].map s.wt).sum ≤ 9 := by
      simp only [List.map_cons, List.map_nil, List.sum_cons, List.sum_nil, wt]; split <;> omega
    omega
  obtain ⟨b, M, e, h1, h2⟩ := opLoop_spec hdim hp'.2 _ _ _ h0 hpot
  refine ⟨b, M, e, ?_, ?_, ?_, ?_⟩
  · cases b with
    | true => exact (h1 rfl).sub
    | false => exact (h2 rfl).2.2
  · cases b with
    | true =>
      intro q hq
      rcases (h1 rfl).mks q hq with h | h
      · exact .inl h
      · exact .inr ⟨h.1, h.2.1⟩
    | false => exact (h2 rfl).2.1
  · intro hz
    cases b with
    | true => rfl
    | false =>
      obtain ⟨⟨z, hz1, hz2, hz3⟩, -⟩ := h2 rfl
      exact absurd hz3 (hz z hz1 hz2)
  · intro hm0 hb z hz
    have hI := h1 hb
    have key : z ∈ M := by
      induction hz with
      | refl => simpa using hI.p0
      | tail hl hk ih =>
        rename_i a c
        have : a ∉ m0 := fun h => hm0 a h hl
        simpa using hI.cl a ih this c hk.2.1 hk.2.2
    refine ⟨key, ?_⟩
    rcases hI.mks z key with h | h
    · exact absurd hz (hm0 z h)
    · exact h.2.2

theorem opNumStep_total {s : MSB} (hdim : vcells s.board = grid s.row s.column) {q : Pos}
    (hq : q ∈ grid s.row s.column) (st : Nat × List Pos) : ∃ st', s.opNumStep st q = some st' := by
  unfold opNumStep
  split
  · next h =>
    have hz : q ∈ zeros s.board := Finset.mem_filter.mpr ⟨hdim ▸ hq, h.2.1⟩
    obtain ⟨b, M, e, -⟩ := cellIsOpCompleted_spec hdim hz st.2
    rw [e]; exact ⟨_, rfl⟩
  · exact ⟨_, rfl⟩

theorem opNum_total {s : MSB} (hdim : vcells s.board = grid s.row s.column) (p : Pos) :
    ∃ n, s.opNumAroundCell p = some n := by
  unfold opNumAroundCell
  have key : ∀ (l : List Pos) (st : Nat × List Pos), (∀ q ∈ l, q ∈ grid s.row s.column) →
      ∃ st', l.foldlM (m := Option) s.opNumStep st = some st' := by
    intro l
    induction l with
    | nil => intro st _; exact ⟨st, rfl⟩
    | cons a l ih =>
      intro st hl
      obtain ⟨st1, e⟩ := opNumStep_total hdim (hl a (by simp)) st
      obtain ⟨st2, e2⟩ := ih st1 (fun q hq => hl q (by simp [hq]))
      exact ⟨st2, by rw [List.foldlM_cons, e]; exact e2⟩
  obtain ⟨st, e⟩ := key (block s.row s.column p.1 p.2) (0, []) (fun q hq => (mem_block_near.mp hq).1)
  rw [e]; exact ⟨_, rfl⟩

end MSB
end Ms
