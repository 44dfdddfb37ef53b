import Verif.Model.Guess
import Verif.Lemmas.MarkAny

namespace Ms
open Spec

/-! ## regions of covered cells -/

/-- The marked board `m` of a search on `g`: some covered cells carry the mark `w`. -/
structure MarkOf (r c : Nat) (w : Int) (g m : Board) : Prop where
  rect : Rect m r c
  val : ∀ p : Pos, p.1 < r → p.2 < c → m.get p.1 p.2 = g.get p.1 p.2 ∨ (g.get p.1 p.2 = 10 ∧ m.get p.1 p.2 = w)

/-- The number of cells that are still unvisited. -/
def count10 (r c : Nat) (m : Board) : Nat := ((grid r c).filter fun p => m.get p.1 p.2 = 10).card

variable {r c : Nat} {w : Int} {g m : Board}

theorem MarkOf.refl (h : Rect g r c) : MarkOf r c w g g := ⟨h, fun _ _ _ => .inl rfl⟩

theorem MarkOf.set (h : MarkOf r c w g m) {p : Pos} (h1 : p.1 < r) (h2 : p.2 < c) (hp : m.get p.1 p.2 = 10) (hw : w ≠ 10) :
    MarkOf r c w g (m.set p.1 p.2 w) := by
  refine ⟨rect_set h.rect _ _ _, fun q hq1 hq2 => ?_⟩
  rw [get_set h.rect h1 h2]
  split
  · rename_i he
    refine .inr ⟨?_, rfl⟩
    rcases h.val q hq1 hq2 with e | ⟨e, -⟩
    · rw [← e, he.1, he.2]; exact hp
    · exact e
  · exact h.val q hq1 hq2

theorem count10_set (h : Rect m r c) {p : Pos} (h1 : p.1 < r) (h2 : p.2 < c) (hp : m.get p.1 p.2 = 10) (hw : w ≠ 10) :
    count10 r c (m.set p.1 p.2 w) + 1 = count10 r c m := by
  unfold count10
  have hsub : ((grid r c).filter fun q => (m.set p.1 p.2 w).get q.1 q.2 = 10) =
      ((grid r c).filter fun q => m.get q.1 q.2 = 10).erase p := by
    ext q
    simp only [Finset.mem_filter, Finset.mem_erase, get_set h h1 h2]
    split
    · rename_i he
      have : q = p := Prod.ext he.1 he.2
      simp [this, hw]
    · rename_i he
      have : q ≠ p := fun e => he (by rw [e]; exact ⟨rfl, rfl⟩)
      simp [this]
  rw [hsub]
  exact Finset.card_erase_add_one (Finset.mem_filter.mpr ⟨mem_grid.mpr ⟨h1, h2⟩, hp⟩)

theorem count10_le (r c : Nat) (m : Board) : count10 r c m ≤ r * c := by
  unfold count10
  refine (Finset.card_filter_le _ _).trans ?_
  unfold grid
  simp

theorem MarkOf.lt10 (h : MarkOf r c w g m) (hw : ¬ w < 10) {p : Pos} (h1 : p.1 < r) (h2 : p.2 < c)
    (hp : m.get p.1 p.2 < 10) : g.get p.1 p.2 < 10 := by
  rcases h.val p h1 h2 with e | ⟨-, e⟩
  · rw [← e]; exact hp
  · rw [e] at hp; exact absurd hp hw

theorem MarkOf.eq10 (h : MarkOf r c w g m) {p : Pos} (h1 : p.1 < r) (h2 : p.2 < c)
    (hp : m.get p.1 p.2 = 10) : g.get p.1 p.2 = 10 := by
  rcases h.val p h1 h2 with e | ⟨e, -⟩
  · rw [← e]; exact hp
  · exact e

/-- A covered cell beside a value below 10. -/
def BorderCell (r c : Nat) (g : Board) (p : Pos) : Prop :=
  p.1 < r ∧ p.2 < c ∧ g.get p.1 p.2 = 10 ∧ ∃ q ∈ block r c p.1 p.2, g.get q.1 q.2 < 10

theorem compCell_fold (l : List Pos) : (∀ q ∈ l, q.1 < r ∧ q.2 < c) → ∀ (m : Board) (buf : List Pos) (f : Bool),
    MarkOf r c 21 g m → (∀ q ∈ buf, q.1 < r ∧ q.2 < c ∧ g.get q.1 q.2 = 10) →
    MarkOf r c 21 g (l.foldl compCell (m, buf, f)).1 ∧
      (∀ q ∈ (l.foldl compCell (m, buf, f)).2.1, q.1 < r ∧ q.2 < c ∧ g.get q.1 q.2 = 10) ∧
      (l.foldl compCell (m, buf, f)).2.1.length + count10 r c (l.foldl compCell (m, buf, f)).1 = buf.length + count10 r c m ∧
      ((l.foldl compCell (m, buf, f)).2.2 = true → f = true ∨ ∃ q ∈ l, g.get q.1 q.2 < 10) := by
  induction l with
  | nil => intro _ m buf f hm hb; exact ⟨hm, hb, rfl, fun h => .inl h⟩
  | cons q l ih =>
    intro hl m buf f hm hb
    have hq := hl q (by simp)
    rw [List.foldl_cons]
    by_cases h1 : m.get q.1 q.2 = 10
    · have e : compCell (m, buf, f) q = (m.set q.1 q.2 21, q :: buf, f) := by
        unfold compCell; simp only; rw [if_pos h1]
      rw [e]
      obtain ⟨a1, a2, a3, a4⟩ := ih (fun q hq => hl q (by simp [hq])) _ (q :: buf) f (hm.set hq.1 hq.2 h1 (by decide)) (by
        intro x hx
        rcases List.mem_cons.mp hx with rfl | hx
        · exact ⟨hq.1, hq.2, hm.eq10 hq.1 hq.2 h1⟩
        · exact hb x hx)
      refine ⟨a1, a2, ?_, fun h => (a4 h).imp id fun ⟨x, hx, h⟩ => ⟨x, by simp [hx], h⟩⟩
      have := count10_set (w := 21) hm.rect hq.1 hq.2 h1 (by decide)
      rw [List.length_cons] at a3
      omega
    · by_cases h2 : m.get q.1 q.2 < 10
      · have e : compCell (m, buf, f) q = (m, buf, true) := by
          unfold compCell; simp only; rw [if_neg h1, if_pos h2]
        rw [e]
        obtain ⟨a1, a2, a3, a4⟩ := ih (fun q hq => hl q (by simp [hq])) m buf true hm hb
        exact ⟨a1, a2, a3, fun _ => .inr ⟨q, by simp, hm.lt10 (by decide) hq.1 hq.2 h2⟩⟩
      · have e : compCell (m, buf, f) q = (m, buf, f) := by
          unfold compCell; simp only; rw [if_neg h1, if_neg h2]
        rw [e]
        obtain ⟨a1, a2, a3, a4⟩ := ih (fun q hq => hl q (by simp [hq])) m buf f hm hb
        exact ⟨a1, a2, a3, fun h => (a4 h).imp id fun ⟨x, hx, h⟩ => ⟨x, by simp [hx], h⟩⟩

theorem mem_block_lt {p q : Pos} (h : q ∈ block r c p.1 p.2) : q.1 < r ∧ q.2 < c := by
  have := mem_block'.mp h; exact ⟨this.1, this.2.1⟩

theorem compLoop_spec (hr : 0 < r) : ∀ (fuel : Nat) (m : Board) (buf out : List Pos), MarkOf r c 21 g m →
    (∀ q ∈ buf, q.1 < r ∧ q.2 < c ∧ g.get q.1 q.2 = 10) → (∀ q ∈ out, BorderCell r c g q) →
    buf.length + count10 r c m < fuel →
    ∃ m' out', compLoop fuel m buf out = some (m', out') ∧ MarkOf r c 21 g m' ∧ (∀ q ∈ out', BorderCell r c g q) := by
  intro fuel
  induction fuel with
  | zero => intro m buf out _ _ _ h; omega
  | succ fuel ih =>
    intro m buf out hm hb ho hf
    cases buf with
    | nil => exact ⟨m, out, rfl, hm, ho⟩
    | cons t buf =>
      have hd := rect_dims hm.rect hr
      obtain ⟨a1, a2, a3, a4⟩ := compCell_fold (g := g) (block r c t.1 t.2) (fun q hq => mem_block_lt hq) m buf false hm
        (fun q hq => hb q (by simp [hq]))
      rw [compLoop, hd.1, hd.2]
      refine ih _ _ _ a1 a2 ?_ (by rw [a3]; rw [List.length_cons] at hf; omega)
      intro q hq
      split at hq
      · rename_i hfl
        rcases List.mem_append.mp hq with hq | hq
        · exact ho q hq
        · rw [List.mem_singleton.mp hq]
          have ht := hb t (by simp)
          rcases a4 hfl with h | h
          · simp at h
          · exact ⟨ht.1, ht.2.1, ht.2.2, h⟩
      · exact ho q hq

theorem regionStep_spec (hr : 0 < r) : ∀ (l : List Pos), (∀ q ∈ l, q.1 < r ∧ q.2 < c) →
    ∀ (m : Board) (gs : List (List Pos)), MarkOf r c 21 g m → (∀ x ∈ gs, x ≠ [] ∧ ∀ q ∈ x, BorderCell r c g q) →
    ∃ st, l.foldlM (regionStep (r * c + 2)) (m, gs) = some st ∧ (∀ x ∈ st.2, x ≠ [] ∧ ∀ q ∈ x, BorderCell r c g q) := by
  intro l
  induction l with
  | nil => intro _ m gs hm hg; exact ⟨(m, gs), rfl, hg⟩
  | cons p l ih =>
    intro hl m gs hm hg
    have hp := hl p (by simp)
    rw [List.foldlM_cons]
    by_cases h1 : m.get p.1 p.2 = 10
    · obtain ⟨m', out', e1, e2, e3⟩ := compLoop_spec (g := g) hr (r * c + 2) (m.set p.1 p.2 21) [p] []
        (hm.set hp.1 hp.2 h1 (by decide)) (fun q hq => by
          rw [List.mem_singleton.mp hq]; exact ⟨hp.1, hp.2, hm.eq10 hp.1 hp.2 h1⟩) (by simp) (by
          have := count10_le r c (m.set p.1 p.2 21)
          simp only [List.length_singleton]; omega)
      have e : regionStep (r * c + 2) (m, gs) p = some (m', if out' = [] then gs else gs ++ [out']) := by
        unfold regionStep
        simp only
        rw [if_pos h1, e1]; rfl
      rw [e]
      refine ih (fun q hq => hl q (by simp [hq])) m' _ e2 ?_
      intro x hx
      split at hx
      · exact hg x hx
      · rename_i hne
        rcases List.mem_append.mp hx with hx | hx
        · exact hg x hx
        · rw [List.mem_singleton.mp hx]; exact ⟨hne, e3⟩
    · have e : regionStep (r * c + 2) (m, gs) p = some (m, gs) := by
        unfold regionStep
        simp only
        rw [if_neg h1]
      rw [e]
      exact ih (fun q hq => hl q (by simp [hq])) m gs hm hg

theorem borderGroups_spec (hg : Rect g r c) (hr : 0 < r) :
    ∃ gs, borderGroups g = some gs ∧ ∀ x ∈ gs, x ≠ [] ∧ ∀ q ∈ x, BorderCell r c g q := by
  have hd := rect_dims hg hr
  obtain ⟨st, h1, h2⟩ := regionStep_spec (g := g) (c := c) hr (cells r c) (fun q hq => mem_cells.mp hq) g [] (.refl hg) (by simp)
  unfold borderGroups
  rw [hd.1, hd.2, h1]
  exact ⟨_, rfl, h2⟩

/-! ## adjacency of blocks -/

theorem regionEdges_spec {S : Sys} : ∀ (fuel : Nat) (blk : List Pos) (last : Option Nat), (∀ q ∈ blk, q ∈ sysCells S) →
    (∀ l, last = some l → ∀ q ∈ blk, q ∉ (S.getD l ⟨[], []⟩).x) → blk.length < fuel →
    ∃ E, regionEdges S fuel blk last = some E ∧ ∀ e ∈ E, e.1 ≠ e.2 := by
  intro fuel
  induction fuel with
  | zero => intro blk last _ _ h; omega
  | succ fuel ih =>
    intro blk last hc hl hf
    rw [regionEdges]
    cases hb : blk.getLast? with
    | none => exact ⟨[], rfl, by simp⟩
    | some seed =>
      have hseed : seed ∈ blk := List.mem_of_getLast? hb
      have hdl : blk.dropLast.length + 1 = blk.length := by
        cases blk with
        | nil => simp at hb
        | cons a b => simp
      obtain ⟨B, hB, hs⟩ := mem_sysCells.mp (hc seed hseed)
      cases ht : S.findIdx? (fun B => B.x.contains seed) with
      | none =>
        rw [List.findIdx?_eq_none_iff] at ht
        have := ht B hB
        simp [hs] at this
      | some t =>
        obtain ⟨ht1, ht2, -⟩ := List.findIdx?_eq_some_iff_getElem.mp ht
        have hst : seed ∈ (S.getD t ⟨[], []⟩).x := by
          rw [List.getD_eq_getElem?_getD, List.getElem?_eq_getElem ht1]
          simpa using ht2
        obtain ⟨E, e1, e2⟩ := ih (blk.dropLast.filter fun x => ¬ (S.getD t ⟨[], []⟩).x.contains x) (some t)
          (fun q hq => hc q (List.mem_of_mem_dropLast (List.mem_filter.mp hq).1)) (by
            intro l hl q hq
            obtain rfl := Option.some.inj hl
            have := (List.mem_filter.mp hq).2
            simpa using this) (by
            have := List.length_filter_le (fun x => decide ¬ (S.getD t ⟨[], []⟩).x.contains x) blk.dropLast
            omega)
        simp only [ht, Option.bind_eq_bind, Option.bind_some, e1]
        cases last with
        | none => exact ⟨E, rfl, e2⟩
        | some l =>
          refine ⟨_, rfl, ?_⟩
          intro e he
          rcases List.mem_cons.mp he with rfl | he
          · intro h
            have h : l = t := h
            exact hl l rfl seed hseed (h ▸ hst)
          · exact e2 e he

theorem blockEdges_spec {S : Sys} : ∀ (gs : List (List Pos)), (∀ x ∈ gs, ∀ q ∈ x, q ∈ sysCells S) →
    ∃ E, blockEdges S gs = some E ∧ ∀ e ∈ E, e.1 ≠ e.2 := by
  intro gs
  induction gs with
  | nil => intro _; exact ⟨[], rfl, by simp⟩
  | cons x gs ih =>
    intro h
    obtain ⟨E, e1, e2⟩ := ih fun y hy => h y (by simp [hy])
    obtain ⟨E', e3, e4⟩ := regionEdges_spec (S := S) (x.length + 1) x none (h x (by simp)) (by simp) (by omega)
    unfold blockEdges at e1 ⊢
    rw [List.mapM_cons, e3]
    cases hm : gs.mapM (fun blk => regionEdges S (blk.length + 1) blk none) with
    | none => rw [hm] at e1; simp at e1
    | some L =>
      rw [hm] at e1
      simp only [Option.map_some, Option.some.injEq] at e1
      refine ⟨E' ++ E, by simp [← e1], fun e he => ?_⟩
      rcases List.mem_append.mp he with he | he
      · exact e4 e he
      · exact e2 e he

theorem mapM_some {α β : Type} (f : α → Option β) : ∀ (l : List α), (∀ a ∈ l, ∃ b, f a = some b) → ∃ L, l.mapM f = some L := by
  intro l
  induction l with
  | nil => intro _; exact ⟨[], rfl⟩
  | cons a l ih =>
    intro h
    obtain ⟨b, hb⟩ := h a (by simp)
    obtain ⟨L, hL⟩ := ih fun a ha => h a (by simp [ha])
    exact ⟨b :: L, by simp [List.mapM_cons, hb, hL]⟩

theorem visitFrom_spec {E : List (Nat × Nat)} (hE : ∀ e ∈ E, e.1 ≠ e.2) (n : Nat) : ∀ (fuel t : Nat), t < n → n - t < fuel →
    ∃ l, visitFrom E n fuel t = some (t :: l) := by
  intro fuel
  induction fuel with
  | zero => intro t _ h; omega
  | succ fuel ih =>
    intro t ht hf
    obtain ⟨L, hL⟩ := mapM_some (visitFrom E n fuel) ((List.range n).filter fun j => t ≤ j && adjacent E t j).reverse (by
      intro j hj
      rw [List.mem_reverse, List.mem_filter, List.mem_range] at hj
      obtain ⟨h1, h2⟩ := hj
      simp only [Bool.and_eq_true, decide_eq_true_eq] at h2
      have hne : t ≠ j := by
        rintro rfl
        have := h2.2
        unfold adjacent at this
        simp only [Bool.or_self, List.contains_iff_mem] at this
        exact hE _ this rfl
      obtain ⟨l, hl⟩ := ih j h1 (by omega)
      exact ⟨_, hl⟩)
    rw [visitFrom]
    simp only [hL, Option.bind_eq_bind, Option.bind_some]
    exact ⟨_, rfl⟩

/-! ## groups of blocks -/

theorem getD_set_block (S : Sys) (t j : Nat) : (S.set t ⟨[], []⟩).getD j ⟨[], []⟩ =
    if j = t then ⟨[], []⟩ else S.getD j ⟨[], []⟩ := by
  simp only [List.getD_eq_getElem?_getD, List.getElem?_set]
  split_ifs with h1 h2 h3 <;> simp_all

theorem sysCells_set_perm (S : Sys) (t : Nat) :
    ((S.getD t ⟨[], []⟩).x ++ sysCells (S.set t ⟨[], []⟩)).Perm (sysCells S) := by
  induction S generalizing t with
  | nil => simp [sysCells]
  | cons B S ih =>
    cases t with
    | zero => simp [sysCells]
    | succ t =>
      have h := ih t
      simp only [List.getD_cons_succ, List.set_cons_succ]
      have e1 : sysCells (B :: S.set t ⟨[], []⟩) = B.x ++ sysCells (S.set t ⟨[], []⟩) := by simp [sysCells]
      have e2 : sysCells (B :: S) = B.x ++ sysCells S := by simp [sysCells]
      rw [e1, e2]
      refine (List.perm_append_comm_assoc _ _ _).trans ?_
      exact h.append_left B.x

/-- Blocks of `S`, possibly emptied. -/
def SubBlocks (S T : Sys) : Prop := ∀ B ∈ T, B ∈ S ∨ B = ⟨[], []⟩

theorem getD_sub {S : Sys} {T : Sys} (h : SubBlocks S T) (t : Nat) : T.getD t ⟨[], []⟩ ∈ S ∨ T.getD t ⟨[], []⟩ = ⟨[], []⟩ := by
  by_cases ht : t < T.length
  · have : T.getD t ⟨[], []⟩ ∈ T := by
      rw [List.getD_eq_getElem?_getD, List.getElem?_eq_getElem ht]
      exact List.getElem_mem ht
    exact h _ this
  · right
    rw [List.getD_eq_getElem?_getD, List.getElem?_eq_none (by omega)]
    rfl

theorem sysCells_append (S T : Sys) : sysCells (S ++ T) = sysCells S ++ sysCells T := by simp [sysCells]

theorem takeFold_spec {S : Sys} : ∀ (l : List Nat) (T R : Sys), SubBlocks S T → SubBlocks S R →
    SubBlocks S (l.foldl (fun st t => (st.1 ++ [st.2.getD t ⟨[], []⟩], st.2.set t ⟨[], []⟩)) (T, R)).1 ∧
    SubBlocks S (l.foldl (fun st t => (st.1 ++ [st.2.getD t ⟨[], []⟩], st.2.set t ⟨[], []⟩)) (T, R)).2 ∧
    (l.foldl (fun st t => (st.1 ++ [st.2.getD t ⟨[], []⟩], st.2.set t ⟨[], []⟩)) (T, R)).2.length = R.length ∧
    (sysCells (l.foldl (fun st t => (st.1 ++ [st.2.getD t ⟨[], []⟩], st.2.set t ⟨[], []⟩)) (T, R)).1 ++
      sysCells (l.foldl (fun st t => (st.1 ++ [st.2.getD t ⟨[], []⟩], st.2.set t ⟨[], []⟩)) (T, R)).2).Perm
      (sysCells T ++ sysCells R) ∧
    ∀ j, j ∈ l ∨ (R.getD j ⟨[], []⟩).rows = [] →
      ((l.foldl (fun st t => (st.1 ++ [st.2.getD t ⟨[], []⟩], st.2.set t ⟨[], []⟩)) (T, R)).2.getD j ⟨[], []⟩).rows = [] := by
  intro l
  induction l with
  | nil => intro T R hT hR; exact ⟨hT, hR, rfl, .refl _, fun j hj => hj.elim (by simp) id⟩
  | cons t l ih =>
    intro T R hT hR
    rw [List.foldl_cons]
    obtain ⟨a1, a2, a3, a4, a5⟩ := ih (T ++ [R.getD t ⟨[], []⟩]) (R.set t ⟨[], []⟩) (by
      intro B hB
      rcases List.mem_append.mp hB with hB | hB
      · exact hT B hB
      · rw [List.mem_singleton.mp hB]; exact getD_sub hR t) (by
      intro B hB
      rcases List.mem_or_eq_of_mem_set hB with hB | rfl
      · exact hR B hB
      · exact .inr rfl)
    refine ⟨a1, a2, by rw [a3]; simp, a4.trans ?_, fun j hj => a5 j ?_⟩
    · rw [sysCells_append, List.append_assoc]
      refine List.Perm.append_left _ ?_
      have := sysCells_set_perm R t
      have e : sysCells [R.getD t ⟨[], []⟩] = (R.getD t ⟨[], []⟩).x := by simp [sysCells]
      rw [e]
      exact this
    · by_cases hjl : j ∈ l
      · exact .inl hjl
      · right
        rw [getD_set_block]
        split
        · rfl
        · rename_i hne
          rcases hj with hj | hj
          · rcases List.mem_cons.mp hj with h | h
            · exact absurd h hne
            · exact absurd h hjl
          · exact hj

theorem takeFold_ne : ∀ (l : List Nat) (T R : Sys), T ≠ [] ∨ l ≠ [] →
    (l.foldl (fun st t => (st.1 ++ [st.2.getD t ⟨[], []⟩], st.2.set t ⟨[], []⟩)) (T, R)).1 ≠ [] := by
  intro l
  induction l with
  | nil => intro T R h; exact h.elim id (by simp)
  | cons t l ih =>
    intro T R _
    rw [List.foldl_cons]
    exact ih _ _ (.inl (by simp))

/-- The state of the grouping loop before block `i`. -/
structure GroupInv (S : Sys) (i : Nat) (Ts : List Sys) (R : Sys) : Prop where
  ne : ∀ T ∈ Ts, T ≠ []
  sub : ∀ T ∈ Ts, SubBlocks S T
  rest : SubBlocks S R
  len : R.length = S.length
  perm : (sysCells Ts.flatten ++ sysCells R).Perm (sysCells S)
  done : ∀ j, j < i → (R.getD j ⟨[], []⟩).rows = []

theorem GroupInv.step {S : Sys} {E : List (Nat × Nat)} (hE : ∀ e ∈ E, e.1 ≠ e.2) {i : Nat} (hi : i < S.length) {Ts : List Sys}
    {R : Sys} (h : GroupInv S i Ts R) : ∃ Ts' R', groupStep E S.length (Ts, R) i = some (Ts', R') ∧ GroupInv S (i + 1) Ts' R' := by
  unfold groupStep
  simp only
  split
  · rename_i he
    refine ⟨Ts, R, rfl, h.ne, h.sub, h.rest, h.len, h.perm, fun j hj => ?_⟩
    by_cases hji : j = i
    · rw [hji]; exact he
    · exact h.done j (by omega)
  · obtain ⟨l, hl⟩ := visitFrom_spec hE S.length (S.length + 1) i hi (by omega)
    rw [hl]
    obtain ⟨a1, a2, a3, a4, a5⟩ := takeFold_spec (S := S) (i :: l) [] R (fun B hB => by simp at hB) h.rest
    refine ⟨_, _, rfl, ?_, ?_, a2, by rw [← h.len]; exact a3, ?_, fun j hj => a5 j ?_⟩
    · intro T hT
      rcases List.mem_append.mp hT with hT | hT
      · exact h.ne T hT
      · rw [List.mem_singleton.mp hT]; exact takeFold_ne _ _ _ (.inr (by simp))
    · intro T hT
      rcases List.mem_append.mp hT with hT | hT
      · exact h.sub T hT
      · rw [List.mem_singleton.mp hT]; exact a1
    · have e : sysCells (Ts ++ [(takeBlocks R (i :: l)).1]).flatten = sysCells Ts.flatten ++ sysCells (takeBlocks R (i :: l)).1 := by
        simp [sysCells]
      rw [e, List.append_assoc]
      refine (a4.append_left _).trans ?_
      have e0 : sysCells ([] : Sys) = [] := rfl
      rw [e0, List.nil_append]
      exact h.perm
    · by_cases hji : j = i
      · exact .inl (by simp [hji])
      · exact .inr (h.done j (by omega))

theorem groupFold_spec {S : Sys} {E : List (Nat × Nat)} (hE : ∀ e ∈ E, e.1 ≠ e.2) : ∀ (k i : Nat), i + k ≤ S.length →
    ∀ (Ts : List Sys) (R : Sys), GroupInv S i Ts R →
    ∃ Ts' R', (List.range' i k).foldlM (groupStep E S.length) (Ts, R) = some (Ts', R') ∧ GroupInv S (i + k) Ts' R' := by
  intro k
  induction k with
  | zero => intro i _ Ts R h; exact ⟨Ts, R, rfl, h⟩
  | succ k ih =>
    intro i hi Ts R h
    obtain ⟨Ts1, R1, e1, h1⟩ := h.step hE (by omega)
    rw [List.range'_succ, List.foldlM_cons, e1]
    obtain ⟨Ts2, R2, e2, h2⟩ := ih (i + 1) (by omega) Ts1 R1 h1
    exact ⟨Ts2, R2, e2, by rw [show i + (k + 1) = i + 1 + k by omega]; exact h2⟩

/-- What `refresh_matrixses` returns. -/
structure Groups (S : Sys) (Ts : List Sys) : Prop where
  ne : ∀ T ∈ Ts, T ≠ []
  sub : ∀ T ∈ Ts, SubBlocks S T
  perm : (sysCells Ts.flatten).Perm (sysCells S)

theorem groupBlocks_spec {S : Sys} (hS : ∀ B ∈ S, B.rows ≠ []) {E : List (Nat × Nat)} (hE : ∀ e ∈ E, e.1 ≠ e.2) :
    ∃ Ts, groupBlocks S E = some Ts ∧ Groups S Ts := by
  obtain ⟨Ts, R, h1, h2⟩ := groupFold_spec hE S.length 0 (by omega) [] S
    ⟨by simp, by simp, fun B hB => .inl hB, rfl, by simp [sysCells], by simp⟩
  unfold groupBlocks
  rw [List.range_eq_range', h1]
  refine ⟨Ts, rfl, h2.ne, h2.sub, ?_⟩
  have hR : sysCells R = [] := by
    unfold sysCells
    rw [List.flatMap_eq_nil_iff]
    intro B hB
    obtain ⟨j, hj, rfl⟩ := List.getElem_of_mem hB
    have hd := h2.done j (by have := h2.len; omega)
    have hg : R.getD j ⟨[], []⟩ = R[j] := by
      rw [List.getD_eq_getElem?_getD, List.getElem?_eq_getElem hj]; rfl
    rw [hg] at hd
    rcases h2.rest R[j] hB with h | h
    · exact absurd hd (hS _ h)
    · rw [h]
  have := h2.perm
  rw [hR, List.append_nil] at this
  exact this

/-- The shape of the system of a game board, whether or not some layout explains it. -/
structure SysShape (g : Board) (S : Sys) : Prop where
  good : GoodSys S
  cells : ∀ q, q ∈ sysCells S ↔ Frontier g q
  rows : ∀ B ∈ S, B.rows ≠ []
  weight : ∀ B ∈ S, RowSum 8 B

theorem SysFor.shape {S : Sys} (h : SysFor r c g S) : SysShape g S := ⟨h.good, h.cells, h.rows, h.weight⟩

theorem refreshMatrixses_spec (hg : Rect g r c) (hr : 0 < r) (hnn : ∀ p : Pos, p.1 < r → p.2 < c → 0 ≤ g.get p.1 p.2)
    {S : Sys} (hS : refreshMatrixs g = some S) (hs : SysShape g S) : ∃ Ts, refreshMatrixses g = some Ts ∧ Groups S Ts := by
  have hone : S ≠ [] → Groups S [S] := fun h => ⟨fun T hT => by rw [List.mem_singleton.mp hT]; exact h,
    fun T hT => by rw [List.mem_singleton.mp hT]; exact fun B hB => .inl hB, by simp⟩
  have hd := rect_dims hg hr
  unfold refreshMatrixses
  simp only [hS, Option.bind_eq_bind, Option.bind_some]
  split
  · rename_i hl
    exact ⟨_, rfl, hone (by rintro rfl; simp at hl)⟩
  · obtain ⟨gs, e1, e2⟩ := borderGroups_spec hg hr
    simp only [e1, Option.bind_some]
    have hcell : ∀ x ∈ gs, ∀ q ∈ x, q ∈ sysCells S := by
      intro x hx q hq
      obtain ⟨h1, h2, h3, t, h4, h5⟩ := (e2 x hx).2 q hq
      have ht := mem_block'.mp h4
      refine (hs.cells q).mpr ⟨⟨by rw [hd.1, hd.2]; exact mem_grid.mpr ⟨h1, h2⟩, h3⟩, t,
        ⟨by rw [hd.1, hd.2]; exact mem_grid.mpr ⟨ht.1, ht.2.1⟩, hnn t ht.1 ht.2.1, h5⟩, ?_⟩
      exact ⟨ht.2.2.1, ht.2.2.2.1, ht.2.2.2.2.1, ht.2.2.2.2.2⟩
    split
    · rename_i hl
      refine ⟨_, rfl, hone ?_⟩
      obtain ⟨x, rfl⟩ := List.length_eq_one_iff.mp hl
      obtain ⟨q, hq⟩ := List.exists_mem_of_ne_nil x (e2 x (by simp)).1
      have := hcell x (by simp) q hq
      rintro rfl
      simp [sysCells] at this
    · obtain ⟨E, e3, e4⟩ := blockEdges_spec (S := S) gs hcell
      simp only [e3, Option.bind_some]
      exact groupBlocks_spec hs.rows e4

end Ms
