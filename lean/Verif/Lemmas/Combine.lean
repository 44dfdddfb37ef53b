import Verif.Lemmas.Count

namespace Ms
open Spec

/-! # What `combine` computes -/

/-- The columns `combine` keeps: those without an equal earlier column. -/
def reps (B : Block) : List Nat :=
  (List.range B.x.length).filter fun j => !((List.range j).any fun i => sameCol B i j)

/-- A column and the equal later ones. -/
def grp (B : Block) (i : Nat) : List Nat := i :: (rng (i + 1) B.x.length).filter fun j => sameCol B i j

theorem sameCol_iff {B : Block} {i j : Nat} :
    sameCol B i j = true ↔ ∀ r ∈ B.rows, r.1.getD i 0 = r.1.getD j 0 := by
  unfold sameCol
  rw [List.all_eq_true]
  constructor
  · intro h r hr; exact of_decide_eq_true (h r hr)
  · intro h r hr; exact decide_eq_true (h r hr)

theorem mem_reps {B : Block} {j : Nat} : j ∈ reps B ↔ j < B.x.length ∧ ∀ i, i < j → sameCol B i j = false := by
  unfold reps
  rw [List.mem_filter, List.mem_range]
  refine and_congr_right fun _ => ?_
  rw [Bool.not_eq_true', List.any_eq_false]
  constructor
  · intro h i hi
    have := h i (List.mem_range.mpr hi)
    cases hs : sameCol B i j <;> simp_all
  · intro h i hi
    rw [h i (List.mem_range.mp hi)]; simp

theorem mem_grp {B : Block} {i k : Nat} (hi : i < B.x.length) :
    k ∈ grp B i ↔ k < B.x.length ∧ i ≤ k ∧ sameCol B i k = true := by
  unfold grp
  rw [List.mem_cons, List.mem_filter, mem_rng]
  constructor
  · rintro (rfl | ⟨⟨h1, h2⟩, h3⟩)
    · exact ⟨hi, le_rfl, sameCol_iff.mpr fun _ _ => rfl⟩
    · exact ⟨h2, by omega, h3⟩
  · rintro ⟨h1, h2, h3⟩
    rcases Nat.lt_or_ge i k with h | h
    · exact .inr ⟨⟨by omega, h1⟩, h3⟩
    · exact .inl (by omega)

theorem nodup_grp (B : Block) (i : Nat) : (grp B i).Nodup := by
  unfold grp
  rw [List.nodup_cons]
  refine ⟨fun h => ?_, (nodup_rng _ _).filter _⟩
  have := mem_rng.mp (List.mem_of_mem_filter h)
  omega

theorem keepIf_reps {α : Type} (d : α) (B : Block) (l : List α) (hl : l.length = B.x.length) :
    (delCells B).foldl (fun l k => l.eraseIdx k) l = (reps B).map fun i => l.getD i d := by
  unfold delCells reps
  rw [← hl, foldl_eraseIdx_desc, map_getD_keepIf]

theorem combine_eq {B : Block} (h : Block01 B) : combine B =
    { rows := B.rows.map fun r => ((reps B).map fun i => r.1.getD i 0 * ((grp B i).length : Nat), r.2)
      x := (reps B).map fun i => B.x.getD i (0, 0)
      groups := (reps B).map (grp B) } := by
  have hg : (delCells B).foldl (fun l k => l.eraseIdx k) (pairCells B) = (reps B).map (grp B) := by
    rw [keepIf_reps [] B _ (by simp [pairCells])]
    apply List.map_congr_left
    intro i hi
    have hi := (mem_reps.mp hi).1
    unfold pairCells
    rw [List.getD_eq_getElem?_getD, List.getElem?_map, List.getElem?_range hi]
    rfl
  unfold combine
  simp only [Squeezed.mk.injEq]
  refine ⟨?_, keepIf_reps _ B _ rfl, hg⟩
  apply List.map_congr_left
  intro r hr
  rw [hg, keepIf_reps 0 B r.1 (h r hr).1, List.zipWith_map, List.zipWith_self]

theorem groups_perm (B : Block) : (((reps B).map (grp B)).flatten).Perm (List.range B.x.length) := by
  rw [List.perm_ext_iff_of_nodup]
  · intro k
    simp only [List.mem_flatten, List.mem_map, List.mem_range]
    constructor
    · rintro ⟨_, ⟨i, hi, rfl⟩, hk⟩
      exact ((mem_grp (mem_reps.mp hi).1).mp hk).1
    · intro hk
      have hex : ∃ i, i ≤ k ∧ sameCol B i k = true := ⟨k, le_rfl, sameCol_iff.mpr fun _ _ => rfl⟩
      classical
      have hs := Nat.find_spec hex
      have hm : ∀ j, j < Nat.find hex → ¬ (j ≤ k ∧ sameCol B j k = true) := fun j hj => Nat.find_min hex hj
      refine ⟨grp B (Nat.find hex), ⟨Nat.find hex, ?_, rfl⟩, ?_⟩
      · rw [mem_reps]
        refine ⟨by omega, fun j hj => ?_⟩
        rw [Bool.eq_false_iff]
        intro hsame
        refine hm j hj ⟨by omega, sameCol_iff.mpr fun r hr => ?_⟩
        rw [sameCol_iff.mp hsame r hr, sameCol_iff.mp hs.2 r hr]
      · rw [mem_grp (by omega)]
        exact ⟨hk, hs.1, hs.2⟩
  · rw [List.nodup_flatten]
    refine ⟨?_, ?_⟩
    · intro l hl
      obtain ⟨i, _, rfl⟩ := List.mem_map.mp hl
      exact nodup_grp B i
    · rw [List.pairwise_map]
      have hnd : (reps B).Pairwise (· < ·) := by
        unfold reps
        exact (List.pairwise_lt_range).filter _
      refine hnd.imp_of_mem fun {i j} hi hj hij => ?_
      rw [List.disjoint_left]
      intro k h1 h2
      have h1 := (mem_grp (mem_reps.mp hi).1).mp h1
      have h2 := (mem_grp (mem_reps.mp hj).1).mp h2
      have := (mem_reps.mp hj).2 i hij
      rw [Bool.eq_false_iff] at this
      apply this
      rw [sameCol_iff]
      intro r hr
      rw [sameCol_iff.mp h1.2.2 r hr, sameCol_iff.mp h2.2.2 r hr]
  · exact List.nodup_range

/-- The cells of one group. -/
def grpSet (B : Block) (i : Nat) : Finset Pos := ((grp B i).map fun k => B.x.getD k (0, 0)).toFinset

/-- The groups as sets of cells. -/
def grpSets (B : Block) : List (Finset Pos) := (reps B).map (grpSet B)

theorem getD_inj_nodup {x : List Pos} (hx : x.Nodup) {i j : Nat} (hi : i < x.length) (hj : j < x.length)
    (h : x.getD i (0, 0) = x.getD j (0, 0)) : i = j := by
  rw [List.getD_eq_getElem?_getD, List.getD_eq_getElem?_getD, List.getElem?_eq_getElem hi,
    List.getElem?_eq_getElem hj] at h
  exact (List.Nodup.getElem_inj_iff hx).mp h

theorem mem_grpSet {B : Block} {i : Nat} {p : Pos} : p ∈ grpSet B i ↔ ∃ k ∈ grp B i, B.x.getD k (0, 0) = p := by
  unfold grpSet; rw [List.mem_toFinset, List.mem_map]

theorem nodup_grp_cells {B : Block} (hx : B.x.Nodup) {i : Nat} (hi : i < B.x.length) :
    ((grp B i).map fun k => B.x.getD k (0, 0)).Nodup := by
  refine List.Nodup.map_on ?_ (nodup_grp B i)
  intro a ha b hb h
  exact getD_inj_nodup hx ((mem_grp hi).mp ha).1 ((mem_grp hi).mp hb).1 h

theorem card_grpSet {B : Block} (hx : B.x.Nodup) {i : Nat} (hi : i < B.x.length) :
    (grpSet B i).card = (grp B i).length := by
  unfold grpSet
  rw [List.toFinset_card_of_nodup (nodup_grp_cells hx hi), List.length_map]

theorem grpSets_disjoint {B : Block} (hx : B.x.Nodup) : (grpSets B).Pairwise Disjoint := by
  unfold grpSets
  rw [List.pairwise_map]
  have hn := (groups_perm B).nodup_iff.mpr List.nodup_range
  rw [List.nodup_flatten, List.pairwise_map] at hn
  refine hn.2.imp_of_mem fun {i j} hi hj h => ?_
  rw [Finset.disjoint_left]
  intro p h1 h2
  obtain ⟨k, k1, rfl⟩ := mem_grpSet.mp h1
  obtain ⟨l, l1, l2⟩ := mem_grpSet.mp h2
  have := getD_inj_nodup hx ((mem_grp (mem_reps.mp hj).1).mp l1).1 ((mem_grp (mem_reps.mp hi).1).mp k1).1 l2
  subst this
  exact List.disjoint_left.mp h k1 l1

theorem unionL_grpSets (B : Block) : unionL (grpSets B) = B.x.toFinset := by
  ext p
  rw [mem_unionL, List.mem_toFinset]
  have hp := (groups_perm B)
  constructor
  · rintro ⟨G, hG, hpG⟩
    obtain ⟨i, hi, rfl⟩ := List.mem_map.mp hG
    obtain ⟨k, k1, rfl⟩ := mem_grpSet.mp hpG
    exact getD_mem_of_lt _ ((mem_grp (mem_reps.mp hi).1).mp k1).1
  · intro hpx
    obtain ⟨k, hk, rfl⟩ := List.getElem_of_mem hpx
    have := hp.mem_iff.mpr (List.mem_range.mpr hk)
    obtain ⟨_, h1, h2⟩ := List.mem_flatten.mp this
    obtain ⟨i, hi, rfl⟩ := List.mem_map.mp h1
    refine ⟨grpSet B i, List.mem_map.mpr ⟨i, hi, rfl⟩, mem_grpSet.mpr ⟨k, h2, ?_⟩⟩
    rw [List.getD_eq_getElem?_getD, List.getElem?_eq_getElem hk]; rfl

theorem lhs_range (σ : Pos → Bool) : ∀ (a : List Int) (x : List Pos), a.length = x.length →
    lhs σ a x = ((List.range x.length).map fun k => if σ (x.getD k (0, 0)) = true then a.getD k 0 else 0).sum := by
  intro a
  induction a with
  | nil => intro x h; cases x with
    | nil => rfl
    | cons _ _ => simp at h
  | cons c a ih =>
    intro x h
    cases x with
    | nil => simp at h
    | cons p x =>
      have := ih x (by simpa using h)
      rw [List.length_cons, List.range_succ_eq_map, List.map_cons, List.map_map, List.sum_cons]
      rw [show lhs σ (c :: a) (p :: x) = (if σ p = true then c else 0) + lhs σ a x by simp [lhs], this]
      rfl

theorem dotL_map (c : Nat → Int) (u : Nat → Nat) : ∀ (L : List Nat),
    dotL (L.map c) (L.map u) = (L.map fun i => if c i ≥ 1 then u i else 0).sum := by
  intro L
  induction L with
  | nil => rfl
  | cons i L ih => simp [ih]

theorem sum_flatten_map {f : Nat → Int} : ∀ (L : List (List Nat)),
    (L.flatten.map f).sum = (L.map fun g => (g.map f).sum).sum := by
  intro L
  induction L with
  | nil => rfl
  | cons g L ih => rw [List.flatten_cons, List.map_append, List.sum_append, ih, List.map_cons, List.sum_cons]

theorem cast_sum_map (f : Nat → Nat) : ∀ (L : List Nat), (((L.map f).sum : Nat) : Int) = (L.map fun i => (f i : Int)).sum := by
  intro L
  induction L with
  | nil => rfl
  | cons i L ih => simp only [List.map_cons, List.sum_cons, ← ih]; push_cast; rfl

theorem sum_ite_countP (P : Nat → Bool) (L : List Nat) :
    ((L.map fun k => if P k = true then (1 : Int) else 0).sum) = (L.countP P : Nat) := by
  induction L with
  | nil => rfl
  | cons k L ih =>
    rw [List.map_cons, List.sum_cons, ih, List.countP_cons]
    by_cases h : P k = true
    · rw [if_pos h, if_pos h]; push_cast; omega
    · rw [if_neg h, if_neg h]; push_cast; omega

theorem card_inter_grpSet {B : Block} (hx : B.x.Nodup) {i : Nat} (hi : i < B.x.length) (T : Finset Pos) :
    (T ∩ grpSet B i).card = (grp B i).countP fun k => decide (B.x.getD k (0, 0) ∈ T) := by
  have : T ∩ grpSet B i = (((grp B i).map fun k => B.x.getD k (0, 0)).filter fun p => p ∈ T).toFinset := by
    ext p
    simp only [grpSet, Finset.mem_inter, List.mem_toFinset, List.mem_filter, decide_eq_true_eq]
    tauto
  rw [this, List.toFinset_card_of_nodup ((nodup_grp_cells hx hi).filter _), List.filter_map, List.length_map,
    ← List.countP_eq_length_filter]
  rfl

/-- An equation of the block, evaluated on the set `T` of mines, is the merged equation evaluated on the group
counts. -/
theorem lhs_eq_dot {B : Block} (h : Block01 B) (hx : B.x.Nodup) {r : List Int × Int} (hr : r ∈ B.rows)
    (T : Finset Pos) :
    lhs (fun p => decide (p ∈ T)) r.1 B.x =
      (dotL ((reps B).map fun i => r.1.getD i 0 * ((grp B i).length : Nat)) (countsOf (grpSets B) T) : Nat) := by
  unfold countsOf grpSets
  rw [List.map_map, dotL_map, lhs_range _ _ _ (h r hr).1, ← ((groups_perm B).map _).sum_eq, sum_flatten_map, List.map_map]
  rw [cast_sum_map]
  congr 1
  apply List.map_congr_left
  intro i hi
  have hi' := (mem_reps.mp hi).1
  simp only [Function.comp_apply]
  have hcol : ∀ k ∈ grp B i, r.1.getD k 0 = r.1.getD i 0 := fun k hk =>
    (sameCol_iff.mp ((mem_grp hi').mp hk).2.2 r hr).symm
  have hlen : 1 ≤ (grp B i).length := by simp [grp]
  rw [List.map_congr_left (g := fun k => if decide (B.x.getD k (0, 0) ∈ T) = true then r.1.getD i 0 else 0)
    (fun k hk => by rw [hcol k hk])]
  rcases getD_mem01 (h r hr).2 i with h0 | h0
  · rw [h0]; simp
  · rw [h0, sum_ite_countP, if_pos (by omega), card_inter_grpSet hx hi']

theorem unionL_counts_all {Gs : List (Finset Pos)} : countsOf Gs (unionL Gs) = Gs.map Finset.card := by
  unfold countsOf
  apply List.map_congr_left
  intro G hG
  rw [Finset.inter_eq_right.mpr (fun p hp => mem_unionL.mpr ⟨G, hG, hp⟩)]

/-- No equation has more than 8 cells. -/
def Weight8 (B : Block) : Prop := ∀ r ∈ B.rows, r.1.sum ≤ 8

theorem lhs_true (σ : Pos → Bool) : ∀ (a : List Int) (x : List Pos), a.length = x.length →
    (∀ p ∈ x, σ p = true) → lhs σ a x = a.sum := by
  intro a
  induction a with
  | nil => intro x h _; cases x with
    | nil => rfl
    | cons _ _ => simp at h
  | cons c a ih =>
    intro x h hx
    cases x with
    | nil => simp at h
    | cons p x =>
      have := ih x (by simpa using h) (fun q hq => hx q (by simp [hq]))
      rw [show lhs σ (c :: a) (p :: x) = (if σ p = true then c else 0) + lhs σ a x by simp [lhs], this,
        if_pos (hx p (by simp)), List.sum_cons]

theorem grp_le_8 {B : Block} (h : Block01 B) (hx : B.x.Nodup) (hc : BlockCovered B) (hw : Weight8 B) {i : Nat}
    (hi : i ∈ reps B) : (grp B i).length ≤ 8 := by
  have hi' := (mem_reps.mp hi).1
  obtain ⟨r, hr, hri⟩ := hc i hi'
  have h1 := lhs_eq_dot h hx hr B.x.toFinset
  rw [lhs_true _ _ _ (h r hr).1 (by simp), ← unionL_grpSets, unionL_counts_all, grpSets, List.map_map, dotL_map] at h1
  have h2 := hw r hr
  rw [h1] at h2
  have hlen : 1 ≤ (grp B i).length := by simp [grp]
  have h3 : (grp B i).length ≤ ((reps B).map fun i =>
      if r.1.getD i 0 * ((grp B i).length : Nat) ≥ 1 then (Finset.card ∘ grpSet B) i else 0).sum := by
    apply List.le_sum_of_mem
    rw [List.mem_map]
    refine ⟨i, hi, ?_⟩
    rw [hri, if_pos (by omega), Function.comp_apply, card_grpSet hx hi']
  omega

theorem combine_len {B : Block} (h : Block01 B) {j : Nat} (hj : j < (reps B).length) :
    (combine B).len j = (grp B ((reps B).getD j 0)).length := by
  unfold Squeezed.len
  rw [combine_eq h]
  simp only
  rw [List.getD_eq_getElem?_getD, List.getElem?_map, List.getD_eq_getElem?_getD, List.getElem?_eq_getElem hj]
  rfl

theorem combine_hit {B : Block} (h : Block01 B) {e j : Nat} (he : e < B.rows.length) (hj : j < (reps B).length) :
    (combine B).hit e j = true ↔ (B.rows.getD e ([], 0)).1.getD ((reps B).getD j 0) 0 = 1 := by
  unfold Squeezed.hit
  rw [combine_eq h]
  simp only [decide_eq_true_eq]
  have e1 : ((B.rows.map fun (r : List Int × Int) => ((reps B).map fun i => (r.1.getD i 0 * ((grp B i).length : Nat) : Int), r.2)).getD e ([], 0)) =
      ((reps B).map fun i => (B.rows.getD e ([], 0)).1.getD i 0 * ((grp B i).length : Nat), (B.rows.getD e ([], 0)).2) := by
    rw [List.getD_eq_getElem?_getD, List.getElem?_map, List.getD_eq_getElem?_getD (l := B.rows), List.getElem?_eq_getElem he]
    rfl
  rw [e1]
  simp only
  rw [List.getD_eq_getElem?_getD (l := (reps B).map _), List.getElem?_map, List.getD_eq_getElem?_getD (l := reps B),
    List.getElem?_eq_getElem hj]
  simp only [Option.map_some, Option.getD_some]
  have hlen : 1 ≤ (grp B ((reps B)[j])).length := by simp [grp]
  rcases getD_mem01 (h _ (getD_mem_of_lt ([], 0) he)).2 ((reps B)[j]) with h0 | h0
  · rw [h0]; simp
  · rw [h0]; constructor
    · intro _; rfl
    · intro _; omega

theorem combine_ok {B : Block} (h : Block01 B) (hx : B.x.Nodup) (hc : BlockCovered B) (hh : RowsHit B)
    (hne : B.rows ≠ []) (hw : Weight8 B) : SqOK (combine B) (reps B).length := by
  refine ⟨?_, ?_, ?_, ?_, ?_, ?_, ?_⟩
  · intro r hr
    rw [combine_eq h] at hr
    obtain ⟨r', _, rfl⟩ := List.mem_map.mp hr
    simp
  · rw [combine_eq h]; simpa using hne
  · rw [combine_eq h]; simp
  · rw [combine_eq h]; simp
  · intro j hj
    rw [combine_len h hj]; simp [grp]
  · intro j hj
    rw [combine_len h hj]
    exact grp_le_8 h hx hc hw (getD_mem_of_lt _ hj)
  · intro e he
    have he' : e < B.rows.length := by rw [combine_eq h] at he; simpa using he
    obtain ⟨k, hk⟩ := hh _ (getD_mem_of_lt ([], 0) he')
    have hkl : k < B.x.length := by
      rw [← (h _ (getD_mem_of_lt ([], 0) he')).1]
      by_contra hcon
      rw [List.getD_eq_getElem?_getD, List.getElem?_eq_none (by omega), Option.getD_none] at hk
      omega
    have := (groups_perm B).mem_iff.mpr (List.mem_range.mpr hkl)
    obtain ⟨_, h1, h2⟩ := List.mem_flatten.mp this
    obtain ⟨i, hi, rfl⟩ := List.mem_map.mp h1
    obtain ⟨j, hj, rfl⟩ := List.getElem_of_mem hi
    refine ⟨j, hj, ?_⟩
    rw [combine_hit h he' hj]
    have hc := sameCol_iff.mp ((mem_grp (mem_reps.mp hi).1).mp h2).2.2 _ (getD_mem_of_lt ([], 0) he')
    rw [List.getD_eq_getElem?_getD (l := reps B), List.getElem?_eq_getElem hj]
    simp only [Option.getD_some]
    rw [hc, hk]

end Ms
