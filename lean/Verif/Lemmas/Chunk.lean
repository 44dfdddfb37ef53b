import Verif.Lemmas.Solve

namespace Ms
open Spec

/-! ## picking and dropping positions of a list -/

/-- The elements whose index satisfies `f`, in order. -/
def keepIf {α : Type} : (Nat → Bool) → List α → List α
  | _, [] => []
  | f, a :: l => (if f 0 then [a] else []) ++ keepIf (fun i => f (i + 1)) l

theorem filter_range_head (f : Nat → Bool) (n : Nat) :
    (List.range (n + 1)).filter f =
      (if f 0 then [0] else []) ++ ((List.range n).filter fun i => f (i + 1)).map (· + 1) := by
  rw [List.range_succ_eq_map, List.filter_cons, List.filter_map]
  split <;> simp [Function.comp_def]

theorem foldl_eraseIdx_succ {α : Type} (a : α) : ∀ (cs : List Nat) (l : List α),
    (cs.map (· + 1)).foldl (fun l c => l.eraseIdx c) (a :: l) = a :: cs.foldl (fun l c => l.eraseIdx c) l := by
  intro cs
  induction cs with
  | nil => intro l; rfl
  | cons c cs ih => intro l; simp only [List.map_cons, List.foldl_cons, List.eraseIdx_cons_succ]; exact ih _

theorem foldl_eraseIdx_desc {α : Type} : ∀ (l : List α) (f : Nat → Bool),
    (((List.range l.length).filter f).reverse).foldl (fun l c => l.eraseIdx c) l = keepIf (fun i => !f i) l := by
  intro l
  induction l with
  | nil => intro f; rfl
  | cons a l ih =>
    intro f
    rw [List.length_cons, filter_range_head, List.reverse_append, List.foldl_append, ← List.map_reverse,
      foldl_eraseIdx_succ, ih]
    cases h : f 0 <;> simp [keepIf, h]

theorem map_getD_keepIf {α : Type} (d : α) : ∀ (l : List α) (f : Nat → Bool),
    ((List.range l.length).filter f).map (fun c => l.getD c d) = keepIf f l := by
  intro l
  induction l with
  | nil => intro f; rfl
  | cons a l ih =>
    intro f
    rw [List.length_cons, filter_range_head, List.map_append, keepIf, ← ih, List.map_map]
    cases h : f 0 <;> simp [Function.comp_def]

theorem keepIf_length_eq {α β : Type} : ∀ (a : List α) (b : List β) (f : Nat → Bool), a.length = b.length →
    (keepIf f a).length = (keepIf f b).length := by
  intro a
  induction a with
  | nil => intro b f h; cases b with
    | nil => rfl
    | cons _ _ => simp at h
  | cons x a ih =>
    intro b f h
    cases b with
    | nil => simp at h
    | cons y b =>
      have := ih b (fun i => f (i + 1)) (by simpa using h)
      simp only [keepIf, List.length_append, this]
      cases f 0 <;> simp

theorem keepIf_mem {α : Type} (d : α) (l : List α) (f : Nat → Bool) (a : α) :
    a ∈ keepIf f l ↔ ∃ k, k < l.length ∧ f k = true ∧ l.getD k d = a := by
  rw [← map_getD_keepIf d]
  simp only [List.mem_map, List.mem_filter, List.mem_range]
  constructor
  · rintro ⟨k, ⟨h1, h2⟩, h3⟩; exact ⟨k, h1, h2, h3⟩
  · rintro ⟨k, h1, h2, h3⟩; exact ⟨k, ⟨h1, h2⟩, h3⟩

theorem keepIf_perm {α : Type} : ∀ (l : List α) (f : Nat → Bool),
    l.Perm (keepIf f l ++ keepIf (fun i => !f i) l) := by
  intro l
  induction l with
  | nil => intro f; exact .nil
  | cons a l ih =>
    intro f
    have := ih (fun i => f (i + 1))
    simp only [keepIf]
    rcases Bool.eq_false_or_eq_true (f 0) with h | h
    · simp only [h, if_true, Bool.not_true, Bool.false_eq_true, if_false, List.nil_append, List.cons_append]
      exact this.cons a
    · simp only [h, Bool.false_eq_true, if_false, Bool.not_false, if_true, List.nil_append]
      exact (this.cons a).trans List.perm_middle.symm

theorem lhs_keepIf (σ : Pos → Bool) : ∀ (a : List Int) (x : List Pos) (f : Nat → Bool), a.length = x.length →
    lhs σ a x = lhs σ (keepIf f a) (keepIf f x) + lhs σ (keepIf (fun i => !f i) a) (keepIf (fun i => !f i) x) := by
  intro a
  induction a with
  | nil => intro x f _; simp [keepIf]
  | cons c a ih =>
    intro x f h
    cases x with
    | nil => simp at h
    | cons p x =>
      have := ih x (fun i => f (i + 1)) (by simpa using h)
      simp only [keepIf]
      rcases Bool.eq_false_or_eq_true (f 0) with h0 | h0 <;> simp [h0, this] <;> omega

theorem lhs_append (σ : Pos → Bool) : ∀ (a : List Int) (x : List Pos) (a' : List Int) (x' : List Pos),
    a.length = x.length → lhs σ (a ++ a') (x ++ x') = lhs σ a x + lhs σ a' x' := by
  intro a
  induction a with
  | nil => intro x a' x' h; cases x with
    | nil => simp
    | cons _ _ => simp at h
  | cons c a ih =>
    intro x a' x' h
    cases x with
    | nil => simp at h
    | cons p x =>
      simp only [List.cons_append, lhs_cons, ih x a' x' (by simpa using h)]; omega

theorem lhs_reverse (σ : Pos → Bool) : ∀ (a : List Int) (x : List Pos), a.length = x.length →
    lhs σ a.reverse x.reverse = lhs σ a x := by
  intro a
  induction a with
  | nil => intro x h; simp
  | cons c a ih =>
    intro x h
    cases x with
    | nil => simp at h
    | cons p x =>
      have hl : a.length = x.length := by simpa using h
      rw [List.reverse_cons, List.reverse_cons, lhs_append _ _ _ _ _ (by simpa using hl), ih x hl]
      simp; omega

theorem keepIf_zero {a : List Int} {f : Nat → Bool} (h : ∀ k, k < a.length → f k = true → a.getD k 0 = 0) :
    ∀ k, (keepIf f a).getD k 0 = 0 := by
  intro k
  by_cases hk : k < (keepIf f a).length
  · have hm : (keepIf f a).getD k 0 ∈ keepIf f a := by
      rw [List.getD_eq_getElem?_getD, List.getElem?_eq_getElem hk]; exact List.getElem_mem hk
    obtain ⟨j, h1, h2, h3⟩ := (keepIf_mem 0 a f _).mp hm
    rw [← h3]; exact h j h1 h2
  · rw [List.getD_eq_getElem?_getD, List.getElem?_eq_none (by omega)]; rfl

/-! ## the breadth-first search -/

/-- The common shape of the two marking loops. -/
theorem markFold_spec {β : Type} (P : β → Bool) (f : β → Nat) (n : Nat) : ∀ (L : List β) (buf : List Nat) (mk : List Bool),
    mk.length = n → (∀ q ∈ L, f q < n) → (∀ k ∈ buf, k < n ∧ mk.getD k false = true) →
    ∀ st, st = L.foldl (fun (st : List Nat × List Bool) q =>
      if P q && ! st.2.getD (f q) false then (st.1 ++ [f q], st.2.set (f q) true) else st) (buf, mk) →
    st.2.length = n ∧
    (∀ k, k < n → (st.2.getD k false = true ↔ mk.getD k false = true ∨ ∃ q ∈ L, P q = true ∧ f q = k)) ∧
    (∀ k, k ∈ st.1 ↔ k ∈ buf ∨ (k < n ∧ mk.getD k false = false ∧ st.2.getD k false = true)) ∧
    (st.2.count false + st.1.length = mk.count false + buf.length) := by
  intro L
  induction L with
  | nil =>
    intro buf mk hn _ hb st rfl
    refine ⟨hn, by simp, ?_, rfl⟩
    intro k
    constructor
    · intro h; exact .inl h
    · rintro (h | ⟨_, h1, h2⟩)
      · exact h
      · simp only [List.foldl_nil] at h2; rw [h1] at h2; simp at h2
  | cons q L ih =>
    intro buf mk hn hL hb st hst
    rw [List.foldl_cons] at hst
    have hq := hL q (by simp)
    by_cases hc : (P q && ! mk.getD (f q) false) = true
    · rw [if_pos hc] at hst
      simp only [Bool.and_eq_true, Bool.not_eq_true'] at hc
      have hset : ∀ k, (mk.set (f q) true).getD k false = if k = f q then true else mk.getD k false := by
        intro k
        rw [List.getD_eq_getElem?_getD, List.getElem?_set, List.getD_eq_getElem?_getD]
        by_cases hk : k = f q
        · subst hk; simp [hn, hq]
        · rw [if_neg (fun h => hk h.symm), if_neg hk]
      obtain ⟨h1, h2, h3, h4⟩ := ih (buf ++ [f q]) (mk.set (f q) true) (by simpa using hn)
        (fun q hq => hL q (by simp [hq])) (by
          intro k hk
          rw [hset]
          rcases List.mem_append.mp hk with hk | hk
          · have := hb k hk; refine ⟨this.1, ?_⟩; split <;> simp_all
          · rw [List.mem_singleton.mp hk]; exact ⟨hq, by simp⟩) st hst
      refine ⟨h1, fun k hk => ?_, fun k => ?_, ?_⟩
      · rw [h2 k hk, hset]
        constructor
        · rintro (h | ⟨q', hq', h⟩)
          · by_cases hkq : k = f q
            · exact .inr ⟨q, by simp, hc.1, hkq.symm⟩
            · rw [if_neg hkq] at h; exact .inl h
          · exact .inr ⟨q', by simp [hq'], h⟩
        · rintro (h | ⟨q', hq', h⟩)
          · left; split <;> simp_all
          · rcases List.mem_cons.mp hq' with rfl | hq'
            · left; rw [if_pos h.2.symm]
            · exact .inr ⟨q', hq', h⟩
      · rw [h3, hset]
        constructor
        · rintro (h | ⟨g1, g2, g3⟩)
          · rcases List.mem_append.mp h with h | h
            · exact .inl h
            · obtain rfl := List.mem_singleton.mp h
              right
              refine ⟨hq, hc.2, (h2 _ hq).mpr (.inl (by rw [hset]; simp))⟩
          · right
            by_cases hkq : k = f q
            · rw [if_pos hkq] at g2; simp at g2
            · rw [if_neg hkq] at g2; exact ⟨g1, g2, g3⟩
        · rintro (h | ⟨g1, g2, g3⟩)
          · exact .inl (by simp [h])
          · by_cases hkq : k = f q
            · exact .inl (by simp [hkq])
            · exact .inr ⟨g1, by rw [if_neg hkq]; exact g2, g3⟩
      · rw [h4]
        have hget : mk[f q]'(by omega) = false := by
          have := hc.2
          rw [List.getD_eq_getElem?_getD, List.getElem?_eq_getElem (by omega)] at this
          simpa using this
        have : (mk.set (f q) true).count false + 1 = mk.count false := by
          rw [List.count_set (by omega), hget]
          have : 0 < mk.count false := List.count_pos_iff.mpr (by rw [← hget]; exact List.getElem_mem _)
          simp; omega
        simp; omega
    · rw [if_neg hc] at hst
      obtain ⟨h1, h2, h3, h4⟩ := ih buf mk hn (fun q hq => hL q (by simp [hq])) hb st hst
      refine ⟨h1, fun k hk => ?_, h3, h4⟩
      rw [h2 k hk]
      constructor
      · rintro (h | ⟨q', hq', h⟩)
        · exact .inl h
        · exact .inr ⟨q', by simp [hq'], h⟩
      · rintro (h | ⟨q', hq', h⟩)
        · exact .inl h
        · rcases List.mem_cons.mp hq' with rfl | hq'
          · left
            by_contra hm
            apply hc
            simp only [Bool.and_eq_true, Bool.not_eq_true']
            refine ⟨h.1, ?_⟩
            rw [h.2]; simpa using hm
          · exact .inr ⟨q', hq', h⟩

/-- What the search maintains. -/
structure BfsInv (B : Block) (colBuf : List Nat) (rb cb : List Bool) : Prop where
  rlen : rb.length = B.rows.length
  clen : cb.length = B.x.length
  buf : ∀ c ∈ colBuf, c < B.x.length ∧ cb.getD c false = true
  cols : ∀ c, c < B.x.length → cb.getD c false = true → c ∈ colBuf ∨
    ∀ r, r < B.rows.length → B.hit r c = true → rb.getD r false = true
  rows : ∀ r, r < B.rows.length → rb.getD r false = true → ∀ c, c < B.x.length → B.hit r c = true →
    cb.getD c false = true
  rhit : ∀ r, r < B.rows.length → rb.getD r false = true → ∃ c, B.hit r c = true

theorem chunkBfs_spec {B : Block} (h : Block01 B) (fuel : Nat) : ∀ (colBuf : List Nat) (rb cb : List Bool),
    BfsInv B colBuf rb cb → rb.count false + 1 < fuel →
    ∃ rb' cb', chunkBfs B fuel colBuf rb cb = some (rb', cb') ∧ BfsInv B [] rb' cb' ∧
      ∀ c, c < B.x.length → cb.getD c false = true → cb'.getD c false = true := by
  induction fuel with
  | zero => intro _ _ _ _ hf; omega
  | succ fuel ih =>
    intro colBuf rb cb inv hf
    rw [chunkBfs]
    by_cases hb : colBuf = []
    · rw [if_pos hb]; subst hb; exact ⟨rb, cb, rfl, inv, fun _ _ h => h⟩
    · rw [if_neg hb]
      obtain ⟨r1, r2, r3, r4⟩ := markFold_spec (fun cr : Nat × Nat => B.hit cr.2 cr.1) (fun cr => cr.2) B.rows.length
        (colBuf.flatMap fun c => (List.range B.rows.length).map fun r => (c, r)) [] rb inv.rlen (by
          intro q hq
          simp only [List.mem_flatMap, List.mem_map, List.mem_range] at hq
          obtain ⟨_, _, r, hr, rfl⟩ := hq; exact hr) (by simp) (chunkRows B colBuf rb) rfl
      have r2' : ∀ r, r < B.rows.length → ((chunkRows B colBuf rb).2.getD r false = true ↔
          rb.getD r false = true ∨ ∃ c ∈ colBuf, B.hit r c = true) := by
        intro r hr
        rw [r2 r hr]
        constructor
        · rintro (h | ⟨q, hq, h1, h2⟩)
          · exact .inl h
          · simp only [List.mem_flatMap, List.mem_map, List.mem_range] at hq
            obtain ⟨c, hc, r', hr', rfl⟩ := hq
            exact .inr ⟨c, hc, h2 ▸ h1⟩
        · rintro (h | ⟨c, hc, h1⟩)
          · exact .inl h
          · refine .inr ⟨(c, r), ?_, h1, rfl⟩
            simp only [List.mem_flatMap, List.mem_map, List.mem_range]
            exact ⟨c, hc, r, hr, rfl⟩
      have hrhit : ∀ r, r < B.rows.length → (chunkRows B colBuf rb).2.getD r false = true →
          ∃ c, B.hit r c = true := by
        intro r hr hrb
        rcases (r2' r hr).mp hrb with h1 | ⟨c, _, h1⟩
        · exact inv.rhit r hr h1
        · exact ⟨c, h1⟩
      by_cases hr0 : (chunkRows B colBuf rb).1 = []
      · rw [if_pos hr0]
        refine ⟨_, _, rfl, ⟨r1, inv.clen, by simp, ?_, ?_, hrhit⟩, fun _ _ h => h⟩
        · intro c hc hcb
          right
          intro r hr hh
          rw [r2' r hr]
          rcases inv.cols c hc hcb with h1 | h1
          · exact .inr ⟨c, h1, hh⟩
          · exact .inl (h1 r hr hh)
        · intro r hr hrb c hc hh
          have : rb.getD r false = true := by
            by_contra hn
            have : r ∈ (chunkRows B colBuf rb).1 := (r3 r).mpr (.inr ⟨hr, by simpa using hn, hrb⟩)
            rw [hr0] at this; simp at this
          exact inv.rows r hr this c hc hh
      · rw [if_neg hr0]
        have hrowlen : ∀ r, r < B.rows.length → (B.rows.getD r ([], 0)).1.length = B.x.length :=
          fun r hr => (h _ (getD_rows_mem hr)).1
        have hbufmem : ∀ r ∈ (chunkRows B colBuf rb).1, r < B.rows.length ∧
            (chunkRows B colBuf rb).2.getD r false = true := by
          intro r hr
          rcases (r3 r).mp hr with h1 | ⟨h1, _, h2⟩
          · simp at h1
          · exact ⟨h1, h2⟩
        obtain ⟨c1, c2, c3, c4⟩ := markFold_spec (fun rc : Nat × Nat => B.hit rc.1 rc.2) (fun rc => rc.2) B.x.length
          ((chunkRows B colBuf rb).1.flatMap fun r => (List.range (B.rows.getD r ([], 0)).1.length).map fun c => (r, c))
          [] cb inv.clen (by
            intro q hq
            simp only [List.mem_flatMap, List.mem_map, List.mem_range] at hq
            obtain ⟨r, hr, c, hc, rfl⟩ := hq
            rw [hrowlen r (hbufmem r hr).1] at hc; exact hc) (by simp)
          (chunkCols B (chunkRows B colBuf rb).1 cb) rfl
        have c2' : ∀ c, c < B.x.length → ((chunkCols B (chunkRows B colBuf rb).1 cb).2.getD c false = true ↔
            cb.getD c false = true ∨ ∃ r ∈ (chunkRows B colBuf rb).1, B.hit r c = true) := by
          intro c hc
          rw [c2 c hc]
          constructor
          · rintro (h | ⟨q, hq, h1, h2⟩)
            · exact .inl h
            · simp only [List.mem_flatMap, List.mem_map, List.mem_range] at hq
              obtain ⟨r, hr, c', hc', rfl⟩ := hq
              exact .inr ⟨r, hr, h2 ▸ h1⟩
          · rintro (h | ⟨r, hr, h1⟩)
            · exact .inl h
            · refine .inr ⟨(r, c), ?_, h1, rfl⟩
              simp only [List.mem_flatMap, List.mem_map, List.mem_range]
              exact ⟨r, hr, c, by rw [hrowlen r (hbufmem r hr).1]; exact hc, rfl⟩
        have hcount : (chunkRows B colBuf rb).2.count false + 1 < fuel := by
          have : 0 < (chunkRows B colBuf rb).1.length := List.length_pos_iff.mpr hr0
          simp only [List.length_nil, Nat.add_zero] at r4
          grind
        have hinv : BfsInv B (chunkCols B (chunkRows B colBuf rb).1 cb).1
            (chunkRows B colBuf rb).2 (chunkCols B (chunkRows B colBuf rb).1 cb).2 := by
          refine ⟨r1, c1, ?_, ?_, ?_, hrhit⟩
          · intro c hc
            rcases (c3 c).mp hc with h1 | ⟨h1, _, h2⟩
            · simp at h1
            · exact ⟨h1, h2⟩
          · intro c hc hcb
            by_cases hold : cb.getD c false = true
            · right
              intro r hr hh
              rw [r2' r hr]
              rcases inv.cols c hc hold with h1 | h1
              · exact .inr ⟨c, h1, hh⟩
              · exact .inl (h1 r hr hh)
            · left
              exact (c3 c).mpr (.inr ⟨hc, by simpa using hold, hcb⟩)
          · intro r hr hrb c hc hh
            rw [c2' c hc]
            by_cases hold : rb.getD r false = true
            · exact .inl (inv.rows r hr hold c hc hh)
            · exact .inr ⟨r, (r3 r).mpr (.inr ⟨hr, by simpa using hold, hrb⟩), hh⟩
        obtain ⟨rb', cb', e1, e2, e3⟩ := ih _ _ _ hinv hcount
        exact ⟨rb', cb', e1, e2, fun c hc hcb => e3 c hc ((c2' c hc).mpr (.inl hcb))⟩

/-! ## splitting off one block -/

/-- Every equation of the block has a cell. -/
def RowsHit (B : Block) : Prop := ∀ r ∈ B.rows, ∃ k, r.1.getD k 0 = 1

theorem trueDesc_eq (l : List Bool) (n : Nat) (h : l.length = n) :
    trueDesc l = ((List.range n).filter fun i => l.getD i false).reverse := by rw [← h]; rfl

theorem pickBlock_eq {B : Block} (h : Block01 B) {rb cb : List Bool} (hr : rb.length = B.rows.length)
    (hc : cb.length = B.x.length) :
    pickBlock B (trueDesc rb) (trueDesc cb) =
      ⟨((keepIf (fun i => rb.getD i false) B.rows).map fun r =>
          ((keepIf (fun i => cb.getD i false) r.1).reverse, r.2)).reverse,
        (keepIf (fun i => cb.getD i false) B.x).reverse⟩ := by
  unfold pickBlock
  rw [trueDesc_eq rb _ hr, trueDesc_eq cb _ hc]
  congr 1
  · rw [List.map_reverse]
    congr 1
    rw [← map_getD_keepIf ([], 0) B.rows, List.map_map]
    apply List.map_congr_left
    intro r hr'
    have hr'' : r < B.rows.length := by
      rw [List.mem_filter, List.mem_range] at hr'; exact hr'.1
    simp only [Function.comp]
    congr 1
    rw [List.map_reverse, ← (h _ (getD_rows_mem hr'')).1, map_getD_keepIf]
  · rw [List.map_reverse, map_getD_keepIf]

theorem dropBlock_eq {B : Block} (h : Block01 B) {rb cb : List Bool} (hr : rb.length = B.rows.length)
    (hc : cb.length = B.x.length) :
    dropBlock B (trueDesc rb) (trueDesc cb) =
      ⟨(keepIf (fun i => !rb.getD i false) B.rows).map fun r =>
          (keepIf (fun i => !cb.getD i false) r.1, r.2),
        keepIf (fun i => !cb.getD i false) B.x⟩ := by
  unfold dropBlock
  rw [trueDesc_eq rb _ hr, trueDesc_eq cb _ hc]
  simp only [foldl_eraseIdx_desc]
  congr 1
  apply List.map_congr_left
  intro r hr'
  obtain ⟨k, hk, -, rfl⟩ := (keepIf_mem ([], 0) _ _ _).mp hr'
  rw [← (h _ (getD_rows_mem hk)).1, foldl_eraseIdx_desc]

theorem reverse_getD {α : Type} (d : α) (l : List α) (k : Nat) (hk : k < l.length) :
    l.reverse.getD k d = l.getD (l.length - 1 - k) d := by
  simp only [List.getD_eq_getElem?_getD]
  rw [List.getElem?_reverse hk]

theorem getD_mem_of_lt {α : Type} (d : α) {l : List α} {k : Nat} (hk : k < l.length) : l.getD k d ∈ l := by
  rw [List.getD_eq_getElem?_getD, List.getElem?_eq_getElem hk]; exact List.getElem_mem hk

/-- position bookkeeping: the element of `l` at an index satisfying `f` is in `keepIf f l` at a place that is
the same for every list of that length -/
theorem keepIf_index {n : Nat} {f : Nat → Bool} : ∀ k, k < n → f k = true →
    ∃ j, ∀ {α : Type} (d : α) (l : List α), l.length = n → j < (keepIf f l).length ∧ (keepIf f l).getD j d = l.getD k d := by
  induction n generalizing f with
  | zero => intro k hk; omega
  | succ n ih =>
    intro k hk hf
    cases k with
    | zero =>
      refine ⟨0, fun d l hl => ?_⟩
      cases l with
      | nil => simp at hl
      | cons a l => simp [keepIf, hf]
    | succ k =>
      obtain ⟨j, hj⟩ := ih (f := fun i => f (i + 1)) k (by omega) hf
      refine ⟨if f 0 then j + 1 else j, fun d l hl => ?_⟩
      cases l with
      | nil => simp at hl
      | cons a l =>
        obtain ⟨h1, h2⟩ := hj d l (by simpa using hl)
        cases h0 : f 0
        · simp only [keepIf, h0, Bool.false_eq_true, if_false, List.nil_append, List.getD_cons_succ]
          exact ⟨h1, h2⟩
        · simp only [keepIf, h0, if_true, List.cons_append, List.nil_append, List.length_cons,
            List.getD_cons_succ]
          exact ⟨by omega, h2⟩

/-- the converse: every place of `keepIf f l` comes from an index satisfying `f` -/
theorem keepIf_index' {n : Nat} {f : Nat → Bool} : ∀ (j m : Nat), j < m →
    (∀ {α : Type} (l : List α), l.length = n → (keepIf f l).length = m) →
    ∃ k, k < n ∧ f k = true ∧ ∀ {α : Type} (d : α) (l : List α), l.length = n → (keepIf f l).getD j d = l.getD k d := by
  induction n generalizing f with
  | zero =>
    intro j m hj hm
    have := hm ([] : List Nat) rfl
    simp [keepIf] at this; omega
  | succ n ih =>
    intro j m hj hm
    cases h0 : f 0
    · obtain ⟨k, h1, h2, h3⟩ := ih (f := fun i => f (i + 1)) j m hj (by
        intro α l hl
        cases l with
        | nil =>
          have := hm (α := Option α) (none :: ([] : List α).map some) (by simp at hl ⊢; omega)
          simpa [keepIf, h0] using this
        | cons a l =>
          have := hm (a :: a :: l) (by simpa using hl)
          rw [keepIf, h0] at this
          simpa using this)
      refine ⟨k + 1, by omega, h2, fun d l hl => ?_⟩
      cases l with
      | nil => simp at hl
      | cons a l =>
        simp only [keepIf, h0, Bool.false_eq_true, if_false, List.nil_append, List.getD_cons_succ]
        exact h3 d l (by simpa using hl)
    · cases j with
      | zero =>
        refine ⟨0, by omega, h0, fun d l hl => ?_⟩
        cases l with
        | nil => simp at hl
        | cons a l => simp [keepIf, h0]
      | succ j =>
        obtain ⟨k, h1, h2, h3⟩ := ih (f := fun i => f (i + 1)) j (m - 1) (by omega) (by
          intro α l hl
          have key : ∀ {β : Type} (b : β) (l' : List β), l'.length = n → (keepIf (fun i => f (i + 1)) l').length + 1 = m := by
            intro β b l' hl'
            have := hm (b :: l') (by simpa using hl')
            rw [keepIf, h0] at this
            simpa [Nat.add_comm] using this
          have := key (none : Option α) (l.map some) (by simpa using hl)
          rw [keepIf_length_eq (l.map some) l _ (by simp)] at this
          omega)
        refine ⟨k + 1, by omega, h2, fun d l hl => ?_⟩
        cases l with
        | nil => simp at hl
        | cons a l =>
          simp only [keepIf, h0, if_true, List.cons_append, List.nil_append, List.getD_cons_succ]
          exact h3 d l (by simpa using hl)

/-- The rows satisfying `f` restricted to the columns satisfying `g`. -/
def subBlock (B : Block) (f g : Nat → Bool) : Block :=
  ⟨(keepIf f B.rows).map fun r => (keepIf g r.1, r.2), keepIf g B.x⟩

/-- The block with rows and columns in reverse order. -/
def revBlock (B : Block) : Block := ⟨(B.rows.map fun r => (r.1.reverse, r.2)).reverse, B.x.reverse⟩

/-- The selected rows touch only the selected columns and the others only the others. -/
def ClosedSel (B : Block) (f g : Nat → Bool) : Prop :=
  ∀ r c, r < B.rows.length → c < B.x.length → (B.rows.getD r ([], 0)).1.getD c 0 = 1 → f r = g c

theorem ClosedSel.neg {B : Block} {f g : Nat → Bool} (h : ClosedSel B f g) :
    ClosedSel B (fun i => !f i) (fun i => !g i) := by
  intro r c hr hc h1; simp only [h r c hr hc h1]

theorem mem_subBlock {B : Block} {f g : Nat → Bool} {r' : List Int × Int} (h : r' ∈ (subBlock B f g).rows) :
    ∃ k, k < B.rows.length ∧ f k = true ∧
      r' = (keepIf g (B.rows.getD k ([], 0)).1, (B.rows.getD k ([], 0)).2) := by
  simp only [subBlock, List.mem_map] at h
  obtain ⟨r, hr, rfl⟩ := h
  obtain ⟨k, h1, h2, rfl⟩ := (keepIf_mem ([], 0) _ _ _).mp hr
  exact ⟨k, h1, h2, rfl⟩

theorem subBlock_mem {B : Block} {f g : Nat → Bool} {k : Nat} (hk : k < B.rows.length) (hf : f k = true) :
    (keepIf g (B.rows.getD k ([], 0)).1, (B.rows.getD k ([], 0)).2) ∈ (subBlock B f g).rows := by
  simp only [subBlock, List.mem_map]
  exact ⟨_, (keepIf_mem ([], 0) _ _ _).mpr ⟨k, hk, hf, rfl⟩, rfl⟩

theorem subBlock_01 {B : Block} (h : Block01 B) (f g : Nat → Bool) : Block01 (subBlock B f g) := by
  intro r' hr'
  obtain ⟨k, hk, -, rfl⟩ := mem_subBlock hr'
  obtain ⟨h1, h2⟩ := h _ (getD_rows_mem hk)
  refine ⟨keepIf_length_eq _ _ _ h1, fun c hc => ?_⟩
  obtain ⟨j, hj, -, rfl⟩ := (keepIf_mem 0 _ _ _).mp hc
  exact getD_mem01 h2 j

theorem subBlock_covered {B : Block} (h : Block01 B) (hc : BlockCovered B) {f g : Nat → Bool}
    (hcl : ClosedSel B f g) : BlockCovered (subBlock B f g) := by
  intro j hj
  obtain ⟨k, h1, h2, h3⟩ := keepIf_index' (n := B.x.length) (f := g) j (keepIf g B.x).length hj
    (fun l hl => keepIf_length_eq _ _ _ hl)
  obtain ⟨r, hr, h4⟩ := hc k h1
  obtain ⟨i, hi, rfl⟩ := List.getElem_of_mem hr
  have hg : B.rows.getD i ([], 0) = B.rows[i] := by
    rw [List.getD_eq_getElem?_getD, List.getElem?_eq_getElem hi]; rfl
  rw [← hg] at h4
  refine ⟨_, subBlock_mem hi ((hcl i k hi h1 h4).trans h2), ?_⟩
  simp only
  rw [h3 0 _ (h _ (getD_rows_mem hi)).1]; exact h4

theorem hit_lt {B : Block} (h : Block01 B) {i : Nat} (hi : i < B.rows.length) {k : Nat}
    (hk : (B.rows.getD i ([], 0)).1.getD k 0 = 1) : k < B.x.length := by
  by_contra hh
  rw [List.getD_eq_getElem?_getD, List.getElem?_eq_none (by rw [(h _ (getD_rows_mem hi)).1]; omega)] at hk
  simp at hk

theorem subBlock_hit {B : Block} (h : Block01 B) (hr : RowsHit B) {f g : Nat → Bool}
    (hcl : ClosedSel B f g) : RowsHit (subBlock B f g) := by
  intro r' hr'
  obtain ⟨i, hi, hf, rfl⟩ := mem_subBlock hr'
  obtain ⟨k, hk⟩ := hr _ (getD_rows_mem hi)
  have hkx := hit_lt h hi hk
  obtain ⟨j, hj⟩ := keepIf_index (n := B.x.length) (f := g) k hkx ((hcl i k hi hkx hk).symm.trans hf)
  exact ⟨j, by rw [(hj 0 _ (h _ (getD_rows_mem hi)).1).2]; exact hk⟩

/-- the selected rows are unchanged as equations -/
theorem subBlock_solves {B : Block} (h : Block01 B) {f g : Nat → Bool} (hcl : ClosedSel B f g) (σ : Pos → Bool) :
    SolvesB σ (subBlock B f g) ↔
      ∀ k, k < B.rows.length → f k = true → lhs σ (B.rows.getD k ([], 0)).1 B.x = (B.rows.getD k ([], 0)).2 := by
  have key : ∀ k, k < B.rows.length → f k = true →
      lhs σ (keepIf g (B.rows.getD k ([], 0)).1) (keepIf g B.x) = lhs σ (B.rows.getD k ([], 0)).1 B.x := by
    intro k hk hf
    rw [lhs_keepIf σ _ B.x g (h _ (getD_rows_mem hk)).1]
    rw [lhs_zero (a := keepIf (fun i => !g i) _) (keepIf_zero (fun c hc hg => ?_)), add_zero]
    rw [(h _ (getD_rows_mem hk)).1] at hc
    rcases getD_mem01 (h _ (getD_rows_mem hk)).2 c with h0 | h1
    · exact h0
    · have := hcl k c hk hc h1
      rw [hf] at this
      rw [← this] at hg; simp at hg
  constructor
  · intro hs k hk hf
    have := hs _ (subBlock_mem (g := g) hk hf)
    simp only at this
    rw [← this]; exact (key k hk hf).symm
  · intro hs r' hr'
    obtain ⟨k, hk, hf, rfl⟩ := mem_subBlock hr'
    simp only
    rw [← hs k hk hf]; exact key k hk hf

theorem solvesB_split {B : Block} (h : Block01 B) {f g : Nat → Bool} (hcl : ClosedSel B f g) (σ : Pos → Bool) :
    SolvesB σ B ↔ SolvesB σ (subBlock B f g) ∧ SolvesB σ (subBlock B (fun i => !f i) (fun i => !g i)) := by
  rw [subBlock_solves h hcl, subBlock_solves h hcl.neg]
  constructor
  · intro hs
    exact ⟨fun k hk _ => hs _ (getD_rows_mem hk), fun k hk _ => hs _ (getD_rows_mem hk)⟩
  · rintro ⟨h1, h2⟩ r hr
    obtain ⟨i, hi, rfl⟩ := List.getElem_of_mem hr
    have hg : B.rows.getD i ([], 0) = B.rows[i] := by
      rw [List.getD_eq_getElem?_getD, List.getElem?_eq_getElem hi]; rfl
    rw [← hg]
    rcases Bool.eq_false_or_eq_true (f i) with hf | hf
    · exact h1 i hi hf
    · exact h2 i hi (by simp [hf])

theorem mem_revBlock {B : Block} {r : List Int × Int} :
    r ∈ (revBlock B).rows ↔ (r.1.reverse, r.2) ∈ B.rows := by
  simp only [revBlock, List.mem_reverse, List.mem_map]
  constructor
  · rintro ⟨r0, h, rfl⟩; simpa using h
  · intro h; exact ⟨_, h, by simp⟩

theorem revBlock_01 {B : Block} (h : Block01 B) : Block01 (revBlock B) := by
  intro r hr
  obtain ⟨h1, h2⟩ := h _ (mem_revBlock.mp hr)
  exact ⟨by simpa [revBlock] using h1, fun c hc => h2 c (by simpa using hc)⟩

theorem revBlock_covered {B : Block} (h : Block01 B) (hc : BlockCovered B) : BlockCovered (revBlock B) := by
  intro k hk
  have hk' : k < B.x.length := by simpa [revBlock] using hk
  obtain ⟨r, hr, h1⟩ := hc (B.x.length - 1 - k) (by omega)
  refine ⟨(r.1.reverse, r.2), mem_revBlock.mpr (by simpa using hr), ?_⟩
  simp only
  rw [reverse_getD _ _ _ (by rw [(h r hr).1]; exact hk'), (h r hr).1]; exact h1

theorem revBlock_hit {B : Block} (hr : RowsHit B) : RowsHit (revBlock B) := by
  intro r hr'
  obtain ⟨k, hk⟩ := hr _ (mem_revBlock.mp hr')
  simp only at hk
  have hkl : k < r.1.reverse.length := by
    by_contra hh
    rw [List.getD_eq_getElem?_getD, List.getElem?_eq_none (by omega)] at hk; simp at hk
  refine ⟨r.1.length - 1 - k, ?_⟩
  rw [reverse_getD _ _ _ (by simpa using hkl)] at hk; exact hk

theorem revBlock_solves {B : Block} (h : Block01 B) (σ : Pos → Bool) : SolvesB σ (revBlock B) ↔ SolvesB σ B := by
  constructor
  · intro hs r hr
    have := hs (r.1.reverse, r.2) (mem_revBlock.mpr (by simpa using hr))
    rw [← lhs_reverse σ r.1 B.x (h r hr).1]; exact this
  · intro hs r hr
    have hm := mem_revBlock.mp hr
    have := hs _ hm
    simp only at this
    rw [← this, ← lhs_reverse σ _ _ (h _ hm).1]; simp [revBlock]

/-! ## chunk_matrix -/

/-- What splitting a block achieves. -/
structure SplitB (B : Block) (S : Sys) : Prop where
  equiv : ∀ σ, SolvesB σ B ↔ Solves σ S
  perm : (sysCells S).Perm B.x
  rect : ∀ B' ∈ S, Block01 B'
  covered : ∀ B' ∈ S, BlockCovered B'
  hit : ∀ B' ∈ S, RowsHit B'
  rows : ∀ B' ∈ S, B'.rows ≠ []
  cols : ∀ B' ∈ S, B'.x ≠ []
  weight : ∀ w, RowSum w B → ∀ B' ∈ S, RowSum w B'

theorem keepIf_sum_le {a : List Int} (f : Nat → Bool) (h : ∀ c ∈ a, c = 0 ∨ c = 1) : (keepIf f a).sum ≤ a.sum := by
  have hp := (keepIf_perm a f).sum_eq
  rw [List.sum_append] at hp
  have : 0 ≤ (keepIf (fun i => !f i) a).sum := sum01_nonneg fun c hc => by
    obtain ⟨j, _, _, rfl⟩ := (keepIf_mem 0 _ _ _).mp hc
    exact getD_mem01 h j
  omega

theorem subBlock_weight {B : Block} (h : Block01 B) (f g : Nat → Bool) (w : Int) (hw : RowSum w B) :
    RowSum w (subBlock B f g) := by
  intro r hr
  obtain ⟨k, hk, -, rfl⟩ := mem_subBlock hr
  have h1 := keepIf_sum_le g (h _ (getD_rows_mem hk)).2
  have h2 := hw _ (getD_rows_mem hk)
  simp only
  omega

theorem revBlock_weight {B : Block} (w : Int) (hw : RowSum w B) : RowSum w (revBlock B) := by
  intro r hr
  have := hw _ (mem_revBlock.mp hr)
  simpa using this

theorem keepIf_length_not {α : Type} {l : List α} {g : Nat → Bool} (h0 : 0 < l.length) (hg : g 0 = true) :
    (keepIf (fun i => !g i) l).length < l.length ∧ keepIf g l ≠ [] := by
  have hp := (keepIf_perm l g).length_eq
  rw [List.length_append] at hp
  cases l with
  | nil => simp at h0
  | cons a l =>
    have : 0 < (keepIf g (a :: l)).length := by simp [keepIf, hg]
    exact ⟨by omega, List.length_pos_iff.mp this⟩

/-- the state in which the search starts -/
theorem bfsInv_init {B : Block} (hxl : 0 < B.x.length) :
    BfsInv B [0] (List.replicate B.rows.length false) ((List.replicate B.x.length false).set 0 true) := by
    have hcb : ∀ c, c < B.x.length → ((List.replicate B.x.length false).set 0 true).getD c false = true → c = 0 := by
      intro c hc hcb
      by_contra h0
      rw [List.getD_eq_getElem?_getD, List.getElem?_set_ne (by omega), List.getElem?_replicate, if_pos hc] at hcb
      simp at hcb
    refine ⟨by simp, by simp, ?_, ?_, ?_, ?_⟩
    · intro c hc
      rw [List.mem_singleton.mp hc]
      refine ⟨hxl, ?_⟩
      rw [List.getD_eq_getElem?_getD, List.getElem?_set_self (by simpa using hxl)]; rfl
    · intro c hc hcb'
      left; rw [hcb c hc hcb']; simp
    · intro r hr hrb
      rw [List.getD_eq_getElem?_getD, List.getElem?_replicate, if_pos hr] at hrb
      simp at hrb
    · intro r hr hrb
      rw [List.getD_eq_getElem?_getD, List.getElem?_replicate, if_pos hr] at hrb
      simp at hrb

theorem chunkLoop_spec (fuel : Nat) : ∀ (B : Block), Block01 B → RowsHit B → BlockCovered B → B.rows ≠ [] →
    B.x.length < fuel → ∃ S, chunkLoop fuel B = some S ∧ SplitB B S := by
  induction fuel with
  | zero => intro B _ _ _ _ hf; omega
  | succ fuel ih =>
    intro B h hh hc hne hf
    have hrl : 0 < B.rows.length := List.length_pos_iff.mpr hne
    obtain ⟨k0, hk0⟩ := hh _ (getD_rows_mem hrl)
    have hxl : 0 < B.x.length := by have := hit_lt h hrl hk0; omega
    obtain ⟨row, rest, hrows⟩ : ∃ row rest, B.rows = row :: rest := by
      cases hb : B.rows with
      | nil => exact absurd hb hne
      | cons row rest => exact ⟨row, rest, rfl⟩
    have hrowl : row.1.length = B.x.length := (h row (by simp [hrows])).1
    rw [chunkLoop, hrows]
    simp only
    rw [if_neg (by omega), ← hrows, hrowl]
    have inv0 := bfsInv_init (B := B) hxl
    obtain ⟨rb, cb, e1, e2, e3⟩ := chunkBfs_spec h (B.rows.length + 2) [0] _ _ inv0 (by
      have := List.count_le_length (a := false) (l := List.replicate B.rows.length false)
      simp only [List.length_replicate] at this; omega)
    have hcb0 : cb.getD 0 false = true := by
      apply e3 0 hxl
      rw [List.getD_eq_getElem?_getD, List.getElem?_set_self (by simpa using hxl)]; rfl
    have hcl : ClosedSel B (fun i => rb.getD i false) (fun i => cb.getD i false) := by
      intro r c hr hc' h1
      have hhit := (hit_iff h r c).mpr ⟨hr, h1⟩
      simp only
      rcases Bool.eq_false_or_eq_true (cb.getD c false) with hcb | hcb
      · rw [hcb]
        rcases e2.cols c hc' hcb with h2 | h2
        · simp at h2
        · exact h2 r hr hhit
      · rw [hcb]
        by_contra hrb
        rw [Bool.not_eq_false] at hrb
        rw [e2.rows r hr hrb c hc' hhit] at hcb; simp at hcb
    rw [e1]
    simp only [Option.bind_eq_bind, Option.bind_some]
    have hpick : pickBlock B (trueDesc rb) (trueDesc cb) =
        revBlock (subBlock B (fun i => rb.getD i false) (fun i => cb.getD i false)) := by
      rw [pickBlock_eq h e2.rlen e2.clen]
      simp [revBlock, subBlock]
    have hdrop : dropBlock B (trueDesc rb) (trueDesc cb) =
        subBlock B (fun i => !rb.getD i false) (fun i => !cb.getD i false) := dropBlock_eq h e2.rlen e2.clen
    rw [hpick, hdrop]
    generalize hf' : (fun i => rb.getD i false) = f at *
    generalize hg' : (fun i => cb.getD i false) = g at *
    have hg0 : g 0 = true := by rw [← hg']; exact hcb0
    have hf'' : (fun i => !rb.getD i false) = fun i => !f i := by rw [← hf']
    have hg'' : (fun i => !cb.getD i false) = fun i => !g i := by rw [← hg']
    rw [hf'', hg'']
    have hkn := keepIf_length_not (l := B.x) hxl hg0
    have hp01 := revBlock_01 (subBlock_01 h f g)
    have hpc := revBlock_covered (subBlock_01 h f g) (subBlock_covered h hc hcl)
    have hph := revBlock_hit (subBlock_hit h hh hcl)
    have hpx : (revBlock (subBlock B f g)).x ≠ [] := by
      simp only [revBlock, subBlock, ne_eq, List.reverse_eq_nil_iff]; exact hkn.2
    have hpr : (revBlock (subBlock B f g)).rows ≠ [] := by
      obtain ⟨r, hr, -⟩ := hpc 0 (List.length_pos_iff.mpr hpx)
      exact List.ne_nil_of_mem hr
    have hperm : B.x.Perm ((revBlock (subBlock B f g)).x ++ (subBlock B (fun i => !f i) fun i => !g i).x) := by
      refine (keepIf_perm B.x g).trans ?_
      exact List.Perm.append_right _ (List.reverse_perm _).symm
    by_cases hB' : (subBlock B (fun i => !f i) fun i => !g i).rows = []
    · rw [if_pos hB']
      have hx' : (subBlock B (fun i => !f i) fun i => !g i).x = [] := by
        by_contra hx
        obtain ⟨r, hr, -⟩ := subBlock_covered h hc hcl.neg 0 (List.length_pos_iff.mpr hx)
        rw [hB'] at hr; simp at hr
      have hpw : ∀ w, RowSum w B → RowSum w (revBlock (subBlock B f g)) := fun w hw =>
        revBlock_weight w (subBlock_weight h f g w hw)
      refine ⟨_, rfl, ?_, ?_, ?_, ?_, ?_, ?_, ?_, ?_⟩
      · intro σ
        rw [solvesB_split h hcl, ← revBlock_solves (subBlock_01 h f g)]
        constructor
        · rintro ⟨h1, -⟩ B' hB''; rw [List.mem_singleton.mp hB'']; exact h1
        · intro h1
          refine ⟨h1 _ (by simp), fun r hr => ?_⟩
          rw [hB'] at hr; simp at hr
      · rw [hx', List.append_nil] at hperm
        simpa [sysCells] using hperm.symm
      case refine_8 => intro w hw B' hB''; rw [List.mem_singleton.mp hB'']; exact hpw w hw
      all_goals intro B' hB''; rw [List.mem_singleton.mp hB'']; assumption
    · rw [if_neg hB']
      obtain ⟨S, s1, s2⟩ := ih _ (subBlock_01 h _ _) (subBlock_hit h hh hcl.neg) (subBlock_covered h hc hcl.neg)
        hB' (by
          have := hkn.1
          simp only [subBlock]; omega)
      rw [s1]
      have hpw : ∀ w, RowSum w B → RowSum w (revBlock (subBlock B f g)) := fun w hw =>
        revBlock_weight w (subBlock_weight h f g w hw)
      refine ⟨_, rfl, ?_, ?_, ?_, ?_, ?_, ?_, ?_, ?_⟩
      · intro σ
        rw [solvesB_split h hcl, ← revBlock_solves (subBlock_01 h f g), s2.equiv]
        unfold Solves
        rw [List.forall_mem_cons]
      · have := s2.perm.append_left (revBlock (subBlock B f g)).x
        simp only [sysCells, List.flatMap_cons]
        exact this.trans hperm.symm
      · exact List.forall_mem_cons.mpr ⟨hp01, s2.rect⟩
      · exact List.forall_mem_cons.mpr ⟨hpc, s2.covered⟩
      · exact List.forall_mem_cons.mpr ⟨hph, s2.hit⟩
      · exact List.forall_mem_cons.mpr ⟨hpr, s2.rows⟩
      · exact List.forall_mem_cons.mpr ⟨hpx, s2.cols⟩
      · exact fun w hw => List.forall_mem_cons.mpr ⟨hpw w hw, s2.weight w (subBlock_weight h _ _ w hw)⟩

/-- `chunk_matrix` panics on every block that contains an equation without cells. -/
theorem chunkLoop_none (fuel : Nat) : ∀ (B : Block), Block01 B → ¬ RowsHit B → chunkLoop fuel B = none := by
  induction fuel with
  | zero => intro B _ _; rfl
  | succ fuel ih =>
    intro B h hz
    have hz' : ∃ i, i < B.rows.length ∧ ∀ k, (B.rows.getD i ([], 0)).1.getD k 0 ≠ 1 := by
      unfold RowsHit at hz
      push Not at hz
      obtain ⟨r, hr, hk⟩ := hz
      obtain ⟨i, hi, rfl⟩ := List.getElem_of_mem hr
      refine ⟨i, hi, fun k => ?_⟩
      rw [List.getD_eq_getElem?_getD (l := B.rows), List.getElem?_eq_getElem hi]; exact hk k
    obtain ⟨i, hi, hk⟩ := hz'
    obtain ⟨row, rest, hrows⟩ : ∃ row rest, B.rows = row :: rest := by
      cases hb : B.rows with
      | nil => rw [hb] at hi; simp at hi
      | cons row rest => exact ⟨row, rest, rfl⟩
    have hrowl : row.1.length = B.x.length := (h row (by simp [hrows])).1
    rw [chunkLoop, hrows]
    simp only
    split
    · rfl
    · rename_i hne
      rw [← hrows, hrowl]
      obtain ⟨rb, cb, e1, e2, e3⟩ := chunkBfs_spec h (B.rows.length + 2) [0] _ _ (bfsInv_init (by omega)) (by
        have := List.count_le_length (a := false) (l := List.replicate B.rows.length false)
        simp only [List.length_replicate] at this; omega)
      rw [e1]
      simp only [Option.bind_eq_bind, Option.bind_some]
      have hdrop : dropBlock B (trueDesc rb) (trueDesc cb) =
          subBlock B (fun i => !rb.getD i false) (fun i => !cb.getD i false) := dropBlock_eq h e2.rlen e2.clen
      rw [hdrop]
      have hrb : rb.getD i false = false := by
        by_contra hb
        rw [Bool.not_eq_false] at hb
        obtain ⟨c, hc⟩ := e2.rhit i hi hb
        exact hk c ((hit_iff h i c).mp hc).2
      have hm := subBlock_mem (B := B) (f := fun i => !rb.getD i false) (g := fun i => !cb.getD i false) hi (by
        simp only [hrb, Bool.not_false])
      rw [if_neg (List.ne_nil_of_mem hm)]
      rw [ih _ (subBlock_01 h _ _) ?_]
      · rfl
      · intro hh
        obtain ⟨k, hk'⟩ := hh _ hm
        simp only at hk'
        rcases getD_mem01 (h _ (getD_rows_mem hi)).2 with hall
        have : ∀ k, (B.rows.getD i ([], 0)).1.getD k 0 = 0 := fun k => (hall k).resolve_right (hk k)
        rw [keepIf_zero (fun k _ _ => this k)] at hk'
        omega

theorem chunkMatrix_spec {B : Block} (h : Block01 B) (hh : RowsHit B) (hc : BlockCovered B) (hne : B.rows ≠ []) :
    ∃ S, chunkMatrix B = some S ∧ SplitB B S :=
  chunkLoop_spec _ B h hh hc hne (by omega)

/-- What splitting a system achieves. -/
structure SplitS (S S' : Sys) : Prop where
  equiv : ∀ σ, Solves σ S ↔ Solves σ S'
  perm : (sysCells S').Perm (sysCells S)
  rect : ∀ B' ∈ S', Block01 B'
  covered : ∀ B' ∈ S', BlockCovered B'
  hit : ∀ B' ∈ S', RowsHit B'
  rows : ∀ B' ∈ S', B'.rows ≠ []
  cols : ∀ B' ∈ S', B'.x ≠ []
  weight : ∀ w, (∀ B ∈ S, RowSum w B) → ∀ B' ∈ S', RowSum w B'

theorem chunkMapM_spec : ∀ (S : Sys), (∀ B ∈ S, Block01 B ∧ RowsHit B ∧ BlockCovered B ∧ B.rows ≠ []) →
    ∃ L, S.mapM chunkMatrix = some L ∧ SplitS S L.flatten := by
  intro S
  induction S with
  | nil =>
    intro _
    exact ⟨[], rfl, by simp, by simp, by simp, by simp, by simp, by simp, by simp, by simp⟩
  | cons B S ih =>
    intro h
    obtain ⟨h1, h2, h3, h4⟩ := h B (by simp)
    obtain ⟨T, t1, t2⟩ := chunkMatrix_spec h1 h2 h3 h4
    obtain ⟨L, l1, l2⟩ := ih (fun B hB => h B (by simp [hB]))
    refine ⟨T :: L, by rw [List.mapM_cons, t1, l1]; rfl, ?_, ?_, ?_, ?_, ?_, ?_, ?_, ?_⟩
    · intro σ
      unfold Solves
      rw [List.forall_mem_cons, t2.equiv, List.flatten_cons, List.forall_mem_append]
      exact and_congr Iff.rfl (l2.equiv σ)
    · simp only [sysCells, List.flatten_cons, List.flatMap_append, List.flatMap_cons]
      exact t2.perm.append l2.perm
    · rw [List.flatten_cons, List.forall_mem_append]; exact ⟨t2.rect, l2.rect⟩
    · rw [List.flatten_cons, List.forall_mem_append]; exact ⟨t2.covered, l2.covered⟩
    · rw [List.flatten_cons, List.forall_mem_append]; exact ⟨t2.hit, l2.hit⟩
    · rw [List.flatten_cons, List.forall_mem_append]; exact ⟨t2.rows, l2.rows⟩
    · rw [List.flatten_cons, List.forall_mem_append]; exact ⟨t2.cols, l2.cols⟩
    · intro w hw
      rw [List.flatten_cons, List.forall_mem_append]
      exact ⟨t2.weight w (hw B (by simp)), l2.weight w fun B' hB' => hw B' (by simp [hB'])⟩

theorem chunkMatrixes_spec (S : Sys) (h : ∀ B ∈ S, Block01 B ∧ RowsHit B ∧ BlockCovered B ∧ B.rows ≠ []) :
    ∃ S', chunkMatrixes S = some S' ∧ SplitS S S' := by
  obtain ⟨L, l1, l2⟩ := chunkMapM_spec S.reverse (fun B hB => h B (by simpa using hB))
  refine ⟨L.flatten, by rw [chunkMatrixes, l1]; rfl, ?_, ?_, l2.rect, l2.covered, l2.hit, l2.rows, l2.cols,
    fun w hw => l2.weight w fun B hB => hw B (by simpa using hB)⟩
  · intro σ
    rw [← l2.equiv]
    simp [Solves]
  · refine l2.perm.trans ?_
    unfold sysCells
    exact List.Perm.flatMap_right _ (List.reverse_perm S)

end Ms
