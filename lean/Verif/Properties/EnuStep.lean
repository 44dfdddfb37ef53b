import Verif.SpecEnu
import Mathlib.Data.List.Nodup
import Mathlib.Data.List.Induction
import Mathlib.Data.List.Perm.Basic
import Mathlib.Tactic.Linarith

/-! # C62 `enuOneStep` -/

namespace Ms.Properties
open Ms Ms.Spec

/-! ## the arrangements -/

theorem mem_combs : ∀ {l : List Nat} {k : Nat} {s : List Nat}, s ∈ combs l k ↔ s.Sublist l ∧ s.length = k
  | l, 0, s => by
    unfold combs
    constructor
    · intro h; simp at h; subst h; exact ⟨List.nil_sublist _, rfl⟩
    · rintro ⟨-, h⟩; simp [List.length_eq_zero_iff.mp h]
  | [], k + 1, s => by
    unfold combs
    constructor
    · intro h; cases h
    · rintro ⟨h1, h2⟩; rw [List.sublist_nil.mp h1] at h2; cases h2
  | a :: l, k + 1, s => by
    unfold combs
    rw [List.mem_append, List.mem_map, mem_combs]
    constructor
    · rintro (⟨t, ht, rfl⟩ | ⟨h1, h2⟩)
      · rw [mem_combs] at ht
        exact ⟨ht.1.cons_cons a, by simp [ht.2]⟩
      · exact ⟨h1.cons a, h2⟩
    · rintro ⟨h1, h2⟩
      cases h1 with
      | cons _ h => exact .inr ⟨h, h2⟩
      | cons_cons _ h =>
        rename_i t
        exact .inl ⟨t, mem_combs.mpr ⟨h, by simpa using h2⟩, rfl⟩

theorem nodup_combs : ∀ {l : List Nat}, l.Nodup → ∀ k, (combs l k).Nodup
  | l, hl, 0 => by unfold combs; simp
  | [], hl, k + 1 => by unfold combs; simp
  | a :: l, hl, k + 1 => by
    unfold combs
    rw [List.nodup_cons] at hl
    refine List.nodup_append.mpr ⟨(nodup_combs hl.2 k).map (fun _ _ h => (List.cons.inj h).2), nodup_combs hl.2 _, ?_⟩
    rintro s hs t ht rfl
    rw [List.mem_map] at hs
    obtain ⟨u, -, rfl⟩ := hs
    exact hl.1 ((mem_combs.mp ht).1.subset (by simp))

theorem setOnes {n : Nat} : ∀ (i : List Nat) (r : List Nat), (∀ j ∈ i, j < r.length) →
    (i.foldl (fun r j => r.set j 1) r).length = r.length ∧
    ∀ j, (i.foldl (fun r j => r.set j 1) r)[j]? = if j ∈ i then some 1 else r[j]?
  | [], r, _ => ⟨rfl, fun j => by simp⟩
  | a :: i, r, h => by
    obtain ⟨h1, h2⟩ := setOnes (n := n) i (r.set a 1) (fun j hj => by rw [List.length_set]; exact h j (by simp [hj]))
    refine ⟨by rw [List.foldl_cons, h1, List.length_set], fun j => ?_⟩
    rw [List.foldl_cons, h2, List.getElem?_set]
    by_cases hj : j ∈ i
    · rw [if_pos hj, if_pos (by simp [hj])]
    · rw [if_neg hj]
      by_cases ha : a = j
      · subst ha
        rw [if_pos rfl, if_pos (h a (by simp)), if_pos (by simp)]
      · rw [if_neg ha, if_neg (by simp [hj, Ne.symm ha])]

/-- The rows of `enumerateSub` are all 0/1 lists of that length with that many ones, each once. -/
theorem enumerateSub_spec (n k : Nat) : (enumerateSub n k).Nodup ∧
    ∀ s, s ∈ enumerateSub n k ↔ s.length = n ∧ (∀ x ∈ s, x = 0 ∨ x = 1) ∧ s.count 1 = k := by
  have hin : ∀ i ∈ combs (List.range n) k, ∀ j ∈ i, j < (List.replicate n 0).length := by
    intro i hi j hj
    rw [List.length_replicate]
    exact List.mem_range.mp ((mem_combs.mp hi).1.subset hj)
  have hrow : ∀ i ∈ combs (List.range n) k, ∀ j, (i.foldl (fun r j => r.set j 1) (List.replicate n 0))[j]? =
      if j ∈ i then some 1 else (List.replicate n 0)[j]? := fun i hi => (setOnes (n := n) i _ (hin i hi)).2
  -- a list is the row of the positions of its ones
  have key : ∀ s : List Nat, (∀ x ∈ s, x = 0 ∨ x = 1) → ∀ j, s[j]? =
      if j ∈ (List.range s.length).filter (fun j => s[j]? = some 1) then some 1 else (List.replicate s.length 0)[j]? := by
    intro s hs j
    by_cases hj : j < s.length
    · have h01 := hs s[j] (List.getElem_mem hj)
      rw [List.getElem?_eq_getElem hj, List.getElem?_replicate, if_pos hj]
      by_cases h1 : s[j] = 1
      · rw [if_pos (by simp [hj, h1]), h1]
      · rw [if_neg (by simp [hj, h1])]
        rcases h01 with h | h
        · rw [h]
        · exact absurd h h1
    · rw [List.getElem?_eq_none (by omega), if_neg (by simp [hj]), List.getElem?_eq_none (by simp; omega)]
  have hcount : ∀ s : List Nat, ((List.range s.length).filter (fun j => s[j]? = some 1)).length = s.count 1 := by
    intro s
    induction s using List.reverseRecOn with
    | nil => rfl
    | append_singleton s x ih =>
      rw [List.length_append, List.length_singleton, List.range_succ, List.filter_append, List.length_append,
        List.count_append]
      have e1 : (List.range s.length).filter (fun j => (s ++ [x])[j]? = some 1) =
          (List.range s.length).filter (fun j => s[j]? = some 1) := by
        apply List.filter_congr
        intro j hj
        rw [List.getElem?_append_left (List.mem_range.mp hj)]
      rw [e1, ih]
      congr 1
      by_cases hx : x = 1
      · subst hx; simp
      · simp [hx]
  unfold enumerateSub
  refine ⟨List.Nodup.map_on ?_ (nodup_combs List.nodup_range k), fun s => ?_⟩
  · intro i hi i' hi' he
    have hm : ∀ j, j ∈ i ↔ j ∈ i' := by
      intro j
      have h1 := hrow i hi j
      have h2 := hrow i' hi' j
      rw [he, h2] at h1
      by_cases ha : j ∈ i <;> by_cases hb : j ∈ i' <;> simp only [ha, hb, if_true, if_false] at h1 ⊢
      · exfalso
        rw [List.getElem?_replicate] at h1
        split at h1 <;> cases h1
      · exfalso
        rw [List.getElem?_replicate] at h1
        split at h1 <;> cases h1
    have hs1 := (mem_combs.mp hi).1
    have hs2 := (mem_combs.mp hi').1
    exact (List.perm_ext_iff_of_nodup (hs1.nodup List.nodup_range) (hs2.nodup List.nodup_range)).mpr hm |>.eq_of_pairwise
      (fun _ _ _ _ h1 h2 => absurd (lt_trans h1 h2) (lt_irrefl _)) (List.pairwise_lt_range.sublist hs1) (List.pairwise_lt_range.sublist hs2)
  · rw [List.mem_map]
    constructor
    · rintro ⟨i, hi, rfl⟩
      have hr := hrow i hi
      have hlen : (i.foldl (fun r j => r.set j 1) (List.replicate n 0)).length = n := by
        rw [(setOnes (n := n) i _ (hin i hi)).1, List.length_replicate]
      have h01 : ∀ x ∈ i.foldl (fun r j => r.set j 1) (List.replicate n 0), x = 0 ∨ x = 1 := by
        intro x hx
        obtain ⟨j, hj⟩ := List.mem_iff_getElem?.mp hx
        rw [hr, List.getElem?_replicate] at hj
        split at hj
        · simp at hj; omega
        · split at hj <;> simp at hj; omega
      refine ⟨hlen, h01, ?_⟩
      rw [← hcount, hlen, ← (mem_combs.mp hi).2]
      have : (List.range n).filter (fun j => (i.foldl (fun r j => r.set j 1) (List.replicate n 0))[j]? = some 1) =
          (List.range n).filter (fun j => j ∈ i) := by
        apply List.filter_congr
        intro j hj
        rw [hr, List.getElem?_replicate]
        by_cases h : j ∈ i
        · simp [h]
        · simp [h, List.mem_range.mp hj]
      rw [this]
      have hs1 := (mem_combs.mp hi).1
      apply List.Perm.length_eq
      refine (List.perm_ext_iff_of_nodup (List.nodup_range.filter _) (hs1.nodup List.nodup_range)).mpr fun j => ?_
      rw [List.mem_filter, decide_eq_true_eq]
      exact ⟨fun h => h.2, fun h => ⟨hs1.subset h, h⟩⟩
    · rintro ⟨h1, h2, h3⟩
      refine ⟨(List.range n).filter (fun j => s[j]? = some 1), mem_combs.mpr ⟨List.filter_sublist, ?_⟩, ?_⟩
      · rw [← h1, hcount, h3]
      · apply List.ext_getElem?
        intro j
        rw [hrow _ (mem_combs.mpr ⟨List.filter_sublist, by rw [← h1, hcount, h3]⟩), key s h2, h1]

/-! ## filling a row -/

/-- `fillRow` without its panics -/
def fillT (r ids vals : List Nat) : List Nat := (ids.zip vals).foldl (fun r q => r.set q.1 q.2) r

theorem fillT_length : ∀ (ids vals r : List Nat), (fillT r ids vals).length = r.length
  | [], vals, r => by simp [fillT]
  | i :: ids, [], r => by simp [fillT]
  | i :: ids, v :: vals, r => by
    have := fillT_length ids vals (r.set i v)
    rw [List.length_set] at this
    exact this

theorem fillRow_eq : ∀ (ids vals r : List Nat), (∀ i ∈ ids, i < r.length) → fillRow r ids vals = some (fillT r ids vals)
  | [], vals, r, _ => by simp [fillRow, fillT]
  | i :: ids, [], r, _ => by simp [fillRow, fillT]
  | i :: ids, v :: vals, r, h => by
    have := fillRow_eq ids vals (r.set i v) (fun j hj => by rw [List.length_set]; exact h j (by simp [hj]))
    unfold fillRow fillT at this ⊢
    rw [List.zip_cons_cons, List.foldlM_cons, if_pos (h i (by simp)), List.foldl_cons]
    exact this

theorem fillT_other : ∀ (ids vals r : List Nat) (j : Nat), j ∉ ids → (fillT r ids vals)[j]? = r[j]?
  | [], vals, r, j, _ => by simp [fillT]
  | i :: ids, [], r, j, _ => by simp [fillT]
  | i :: ids, v :: vals, r, j, h => by
    have := fillT_other ids vals (r.set i v) j (by simp at h; exact h.2)
    rw [List.getElem?_set, if_neg (by simp at h; exact fun e => h.1 e.symm)] at this
    exact this

theorem fillT_at : ∀ (ids vals r : List Nat), ids.Nodup → vals.length = ids.length → (∀ i ∈ ids, i < r.length) →
    ∀ t i : Nat, ids[t]? = some i → (fillT r ids vals)[i]? = vals[t]?
  | [], vals, r, _, _, _, t, i, h => by simp at h
  | a :: ids, [], r, _, hl, _, t, i, h => by simp at hl
  | a :: ids, v :: vals, r, hn, hl, hr, t, i, h => by
    rw [List.nodup_cons] at hn
    show (fillT (r.set a v) ids vals)[i]? = _
    cases t with
    | zero =>
      simp only [List.getElem?_cons_zero, Option.some.injEq] at h ⊢
      subst h
      rw [fillT_other _ _ _ _ hn.1, List.getElem?_set, if_pos rfl, if_pos (hr a (by simp))]
    | succ t =>
      simp only [List.getElem?_cons_succ] at h ⊢
      exact fillT_at ids vals (r.set a v) hn.2 (by simpa using hl)
        (fun j hj => by rw [List.length_set]; exact hr j (by simp [hj])) t i h

theorem fillT_fillT {ids v w r : List Nat} (hn : ids.Nodup) (hw : w.length = ids.length) (hr : ∀ i ∈ ids, i < r.length) :
    fillT (fillT r ids v) ids w = fillT r ids w := by
  apply List.ext_getElem?
  intro j
  by_cases hj : j ∈ ids
  · obtain ⟨t, ht⟩ := List.mem_iff_getElem?.mp hj
    rw [fillT_at _ _ _ hn hw (fun i hi => by rw [fillT_length]; exact hr i hi) t j ht, fillT_at _ _ _ hn hw hr t j ht]
  · rw [fillT_other _ _ _ _ hj, fillT_other _ _ _ _ hj, fillT_other _ _ _ _ hj]

/-! ## the parts of the loop -/

theorem newIds_eq {r0 : List Nat} {rest : List (List Nat)} : ∀ (ids : List Nat), (∀ j ∈ ids, j < r0.length) →
    newIds (r0 :: rest) ids = some (ids.filter fun j => r0[j]? = some 2) := by
  have key : ∀ (ids acc : List Nat), (∀ j ∈ ids, j < r0.length) →
      ids.foldlM (m := Option) (fun acc i => (r0 :: rest)[0]?.bind fun r => r[i]?.map fun c =>
        if c = 2 then acc ++ [i] else acc) acc = some (acc ++ ids.filter fun j => r0[j]? = some 2) := by
    intro ids
    induction ids with
    | nil => intro acc _; simp
    | cons a ids ih =>
      intro acc h
      have ha := h a (by simp)
      have ih' := ih (if r0[a] = 2 then acc ++ [a] else acc) (fun j hj => h j (by simp [hj]))
      rw [List.foldlM_cons]
      have e0 : ((r0 :: rest)[0]?.bind fun r => r[a]?.map fun c => if c = 2 then acc ++ [a] else acc) =
          some (if r0[a] = 2 then acc ++ [a] else acc) := by
        rw [List.getElem?_cons_zero, Option.bind_some, List.getElem?_eq_getElem ha, Option.map_some]
      rw [e0]
      refine Eq.trans ih' ?_
      rw [List.filter_cons, List.getElem?_eq_getElem ha]
      by_cases h2 : r0[a] = 2
      · simp [h2]
      · simp [h2]
  intro ids h
  have := key ids [] h
  rw [List.nil_append] at this
  exact this

theorem extraMine_eq {row : List Nat} : ∀ (ids : List Nat) (b : Int), (∀ j ∈ ids, j < row.length) →
    extraMine row ids b = some (b - minesAmong ids row)
  | [], b, _ => by simp [extraMine, minesAmong]
  | a :: ids, b, h => by
    have ha := h a (by simp)
    have ih := fun b => extraMine_eq ids b (fun j hj => h j (by simp [hj]))
    unfold extraMine at ih ⊢
    rw [List.foldlM_cons, List.getElem?_eq_getElem ha, Option.map_some]
    show List.foldlM _ _ ids = _
    rw [ih]
    unfold minesAmong
    rw [List.filter_cons, List.getElem?_eq_getElem ha]
    by_cases h1 : row[a] = 1
    · simp [h1]; omega
    · simp [h1]

theorem enuKeep_eq {newId row : List Nat} {tab : List (List Nat)} {i extra : Nat} (hn : newId.Nodup)
    (hr : ∀ j ∈ newId, j < row.length) (hle : extra ≤ newId.length) :
    ∃ first rest, enumerateSub newId.length extra = first :: rest ∧
      enuKeep newId tab i row extra = some (tab.set i (fillT row newId first) ++ rest.map (fillT row newId)) := by
  obtain ⟨-, hmem⟩ := enumerateSub_spec newId.length extra
  cases he : enumerateSub newId.length extra with
  | nil =>
    exfalso
    have := (hmem (List.replicate extra 1 ++ List.replicate (newId.length - extra) 0)).mpr
      ⟨by simp; omega, by simp only [List.mem_append, List.mem_replicate]; omega, by simp [List.count_replicate]⟩
    rw [he] at this
    cases this
  | cons first rest =>
    refine ⟨first, rest, rfl, ?_⟩
    unfold enuKeep
    rw [he]
    simp only
    rw [fillRow_eq _ _ _ hr, Option.bind_some]
    have key : ∀ (l : List (List Nat)) (t : List (List Nat)), (∀ a ∈ l, a.length = newId.length) →
        l.foldlM (m := Option) (fun tab a => (fillRow (fillT row newId first) newId a).map fun r => tab ++ [r]) t =
          some (t ++ l.map (fillT row newId)) := by
      intro l
      induction l with
      | nil => intro t _; simp
      | cons a l ih =>
        intro t h
        rw [List.foldlM_cons, fillRow_eq _ _ _ (fun j hj => by rw [fillT_length]; exact hr j hj), Option.map_some,
          fillT_fillT hn (h a (by simp)) hr]
        show List.foldlM _ _ l = _
        rw [ih _ (fun x hx => h x (by simp [hx]))]
        simp
    exact key rest _ fun a ha => ((hmem a).mp (by rw [he]; simp [ha])).1

/-! ## the loop -/

/-- what a row becomes -/
def enuOuts (ids newId : List Nat) (b : Int) (row : List Nat) : List (List Nat) :=
  if b - minesAmong ids row < 0 ∨ (b - minesAmong ids row).toNat > newId.length then []
  else (enumerateSub newId.length (b - minesAmong ids row).toNat).map (fillT row newId)

def eraseAll (t : List (List Nat)) (del : List Nat) : List (List Nat) := del.foldr (fun i t => t.eraseIdx i) t

theorem eraseAll_append : ∀ (del : List Nat) (P X : List (List Nat)), del.Pairwise (· < ·) → (∀ i ∈ del, i < P.length) →
    eraseAll (P ++ X) del = eraseAll P del ++ X ∧ P.length ≤ (eraseAll P del).length + del.length ∧
      ∀ j, (∀ i ∈ del, j < i) → j ≤ P.length → j ≤ (eraseAll P del).length := by
  intro del
  induction del using List.reverseRecOn with
  | nil => intro P X _ _; exact ⟨rfl, by simp [eraseAll], fun j _ h => h⟩
  | append_singleton del a ih =>
    intro P X hp hl
    rw [List.pairwise_append] at hp
    have ha := hl a (by simp)
    have hd : ∀ i ∈ del, i < a := fun i hi => hp.2.2 i hi a (by simp)
    have e1 : eraseAll (P ++ X) (del ++ [a]) = eraseAll ((P ++ X).eraseIdx a) del := by simp [eraseAll]
    have e2 : eraseAll P (del ++ [a]) = eraseAll (P.eraseIdx a) del := by simp [eraseAll]
    have hlen : (P.eraseIdx a).length = P.length - 1 := List.length_eraseIdx_of_lt ha
    obtain ⟨h1, h2, h3⟩ := ih (P.eraseIdx a) X hp.1 (fun i hi => by rw [hlen]; have := hd i hi; omega)
    rw [e1, e2, List.eraseIdx_append_of_lt_length ha, h1]
    refine ⟨rfl, by simp; omega, fun j hj hjl => h3 j (fun i hi => hj i (by simp [hi])) ?_⟩
    have := hj a (by simp)
    omega

/-- The loop over the rows: kept rows and appended rows together are the results of the rows so far. -/
theorem enu_loop {ids newId : List Nat} {b : Int} {all : List (List Nat)} (hn : newId.Nodup)
    (hids : ∀ r ∈ all, ∀ j ∈ ids, j < r.length) (hnew : ∀ j ∈ newId, j ∈ ids) : ∀ m ≤ all.length,
    ∃ P X del, (List.range m).foldlM (m := Option) (enuTurn ids newId b) (all, []) = some (P ++ all.drop m ++ X, del) ∧
      P.length = m ∧ del.Pairwise (· < ·) ∧ (∀ i ∈ del, i < m) ∧
      (eraseAll P del ++ X).Perm ((all.take m).flatMap (enuOuts ids newId b))
  | 0, _ => ⟨[], [], [], by simp, rfl, by simp, by simp, by simp [eraseAll]⟩
  | m + 1, hm => by
    obtain ⟨P, X, del, e1, e2, e3, e4, e5⟩ := enu_loop (b := b) hn hids hnew m (by omega)
    have hrow : all[m] ∈ all := List.getElem_mem _
    have hdrop : all.drop m = all[m] :: all.drop (m + 1) := List.drop_eq_getElem_cons (by omega)
    have hget : (P ++ all.drop m ++ X)[m]? = some all[m] := by
      rw [List.append_assoc, List.getElem?_append_right (by omega), e2, Nat.sub_self, hdrop]; rfl
    have htake : all.take (m + 1) = all.take m ++ [all[m]] := by
      rw [List.take_add_one, List.getElem?_eq_getElem (by omega)]; rfl
    have hex := extraMine_eq ids b (hids _ hrow)
    have step : (List.range (m + 1)).foldlM (m := Option) (enuTurn ids newId b) (all, []) =
        enuTurn ids newId b (P ++ all.drop m ++ X, del) m := by
      rw [List.range_succ, List.foldlM_append, e1]
      simp
    rw [step]
    unfold enuTurn
    simp only [hget, Option.bind_some, hex]
    set e := b - minesAmong ids all[m] with he
    by_cases hbad : e < 0 ∨ e.toNat > newId.length
    · rw [if_pos hbad]
      refine ⟨P ++ [all[m]], X, del ++ [m], by rw [hdrop]; simp, by simp [e2], ?_, ?_, ?_⟩
      · rw [List.pairwise_append]
        exact ⟨e3, by simp, fun i hi j hj => by simp at hj; subst hj; exact e4 i hi⟩
      · intro i hi
        rw [List.mem_append] at hi
        rcases hi with hi | hi
        · have := e4 i hi; omega
        · simp at hi; omega
      · have h1 : eraseAll (P ++ [all[m]]) (del ++ [m]) = eraseAll P del := by
          unfold eraseAll
          rw [List.foldr_append]
          simp only [List.foldr_cons, List.foldr_nil]
          generalize all[m] = x
          rw [List.eraseIdx_append_of_length_le (by omega), e2, Nat.sub_self]
          simp
        rw [h1, htake, List.flatMap_append]
        have h2 : enuOuts ids newId b all[m] = [] := by
          unfold enuOuts
          rw [if_pos hbad]
        simp [h2, e5]
    · rw [if_neg hbad]
      push Not at hbad
      obtain ⟨first, rest, f1, f2⟩ := enuKeep_eq (tab := P ++ all.drop m ++ X) (i := m) (extra := e.toNat) hn
        (fun j hj => hids _ hrow j (hnew j hj)) (by omega)
      rw [f2, Option.map_some]
      refine ⟨P ++ [fillT all[m] newId first], X ++ rest.map (fillT all[m] newId), del, ?_, by simp [e2], e3,
        fun i hi => by have := e4 i hi; omega, ?_⟩
      · congr 2
        rw [hdrop]
        generalize fillT all[m] newId first = v
        generalize rest.map (fillT all[m] newId) = w
        generalize all[m] = x
        generalize all.drop (m + 1) = d
        rw [List.append_assoc, List.set_append_right _ _ (by omega), e2, Nat.sub_self]
        simp
      · rw [(eraseAll_append del P _ e3 (by rw [e2]; exact e4)).1, htake, List.flatMap_append]
        have h2 : [all[m]].flatMap (enuOuts ids newId b) =
            fillT all[m] newId first :: rest.map (fillT all[m] newId) := by
          rw [List.flatMap_singleton]
          unfold enuOuts
          rw [if_neg (by push Not; exact hbad), f1, List.map_cons]
        rw [h2]
        have h3 : (eraseAll P del ++ [fillT all[m] newId first] ++ (X ++ rest.map (fillT all[m] newId))).Perm
            ((eraseAll P del ++ X) ++ fillT all[m] newId first :: rest.map (fillT all[m] newId)) := by
          rw [List.append_assoc, List.append_assoc]
          refine List.Perm.append_left _ ?_
          simp only [List.singleton_append]
          rw [← List.cons_append]
          exact (List.perm_middle (l₁ := X)).symm
        exact h3.trans (e5.append_right _)

theorem sort_del {del : List Nat} (h : del.Pairwise (· < ·)) :
    del.mergeSort (fun a b => decide (b ≤ a)) = del.reverse := by
  apply List.Perm.eq_of_pairwise (le := fun a b => b ≤ a)
  · intro a b _ _ h1 h2; exact Nat.le_antisymm h2 h1
  · have := List.pairwise_mergeSort (le := fun a b : Nat => decide (b ≤ a)) (by simp; omega) (by simp; omega) del
    exact this.imp (by simp)
  · rw [List.pairwise_reverse]
    exact h.imp (fun h => Nat.le_of_lt h)
  · exact (List.mergeSort_perm _ _).trans (List.reverse_perm _).symm

theorem enuOneStep_perm {all : List (List Nat)} {ids : List Nat} {b : Int} (hne : all ≠ []) (hn : ids.Nodup)
    (hids : ∀ r ∈ all, ∀ j ∈ ids, j < r.length) (hs : SameOpen all) :
    ∃ out, enuOneStep all ids b = some out ∧ out.Perm (all.flatMap fun r =>
      enuOuts ids (ids.filter fun j => r[j]? = some 2) b r) := by
  obtain ⟨r0, rest, rfl⟩ := List.exists_cons_of_ne_nil hne
  have h1 := newIds_eq (rest := rest) ids (hids r0 (by simp))
  obtain ⟨P, X, del, e1, e2, e3, e4, e5⟩ := enu_loop (b := b) (hn.filter fun j => r0[j]? = some 2) hids
    (fun j hj => (List.mem_filter.mp hj).1) (r0 :: rest).length (Nat.le_refl _)
  unfold enuOneStep
  rw [h1, Option.bind_some, e1, Option.map_some]
  refine ⟨_, rfl, ?_⟩
  simp only
  rw [sort_del e3, List.foldl_reverse, List.drop_length, List.append_nil]
  have h2 := (eraseAll_append del P X e3 (by rw [e2]; exact e4)).1
  unfold eraseAll at h2
  rw [h2]
  rw [List.take_length] at e5
  refine e5.trans (List.Perm.of_eq ?_)
  have hcong : ∀ (l : List (List Nat)) (f g : List Nat → List (List Nat)), (∀ r ∈ l, f r = g r) → l.flatMap f = l.flatMap g := by
    intro l f g h
    rw [List.flatMap_def, List.flatMap_def, List.map_congr_left h]
  refine hcong _ _ _ fun r hr => ?_
  congr 1
  apply List.filter_congr
  intro j _
  have := (hs r0 (by simp) r hr).2 j
  simp [this]

/-! ## the claim -/

theorem filter_split {r r' : List Nat} : ∀ (l : List Nat), (∀ j ∈ l, r[j]? ≠ some 2 → r'[j]? = r[j]?) →
    (l.filter fun j => r'[j]? = some 1).length = (l.filter fun j => r[j]? = some 1).length +
      ((l.filter fun j => r[j]? = some 2).filter fun j => r'[j]? = some 1).length
  | [], _ => rfl
  | a :: l, h => by
    have ih := filter_split l (fun j hj => h j (by simp [hj]))
    by_cases h2 : r[a]? = some 2
    · have h1 : ¬ r[a]? = some 1 := by rw [h2]; simp
      by_cases h' : r'[a]? = some 1 <;> simp [List.filter_cons, h1, h2, h'] at ih ⊢ <;> omega
    · have h' := h a (by simp) h2
      by_cases h1 : r[a]? = some 1 <;> simp [List.filter_cons, h1, h2, h'] at ih ⊢ <;> omega

theorem count_at {o s r' : List Nat} (hl : s.length = o.length) (h : ∀ t i : Nat, o[t]? = some i → r'[i]? = s[t]?) :
    (o.filter fun j => r'[j]? = some 1).length = s.count 1 := by
  have hm : o.map (fun j => r'[j]?) = s.map some := by
    apply List.ext_getElem?
    intro t
    rw [List.getElem?_map, List.getElem?_map]
    by_cases ht : t < o.length
    · have := h t o[t] (List.getElem?_eq_getElem ht)
      rw [List.getElem?_eq_getElem ht, Option.map_some, this, List.getElem?_eq_getElem (by omega)]
      rfl
    · rw [List.getElem?_eq_none (by omega), List.getElem?_eq_none (by omega)]
      rfl
  have e1 : (o.filter fun j => r'[j]? = some 1).length = (o.map (fun j => r'[j]?)).count (some 1) := by
    rw [List.count, List.countP_map, List.countP_eq_length_filter]
    congr 1
    apply List.filter_congr
    intro j _
    rw [Function.comp_apply, Bool.eq_iff_iff, decide_eq_true_eq, beq_iff_eq]
  rw [e1, hm, List.count, List.count, List.countP_map]
  congr 1

theorem mem_outs {ids : List Nat} {b : Int} {r : List Nat} (hn : ids.Nodup) (hids : ∀ j ∈ ids, j < r.length) (r' : List Nat) :
    r' ∈ enuOuts ids (ids.filter fun j => r[j]? = some 2) b r ↔ Decides ids r r' ∧ (minesAmong ids r' : Int) = b := by
  generalize ho : (ids.filter fun j => r[j]? = some 2) = o
  have hon : o.Nodup := ho ▸ hn.filter _
  have hmo : ∀ j, j ∈ o ↔ j ∈ ids ∧ r[j]? = some 2 := fun j => by rw [← ho, List.mem_filter, decide_eq_true_eq]
  have hor : ∀ j ∈ o, j < r.length := fun j hj => hids j ((hmo j).mp hj).1
  have hsum : ∀ r', Decides ids r r' → minesAmong ids r' = minesAmong ids r + (o.filter fun j => r'[j]? = some 1).length := by
    intro r' hd
    unfold minesAmong
    rw [filter_split (r := r) ids (fun j _ h => (hd.2 j).2 (fun hh => h hh.2)), ho]
  have hcnt : ∀ r' : List Nat, (o.filter fun j => r'[j]? = some 1).length ≤ o.length := fun r' => List.length_filter_le _ _
  unfold enuOuts
  constructor
  · intro h
    split at h
    · cases h
    rename_i hb
    push Not at hb
    rw [List.mem_map] at h
    obtain ⟨s, hs, rfl⟩ := h
    obtain ⟨s1, s2, s3⟩ := ((enumerateSub_spec _ _).2 s).mp hs
    have hat := fillT_at o s r hon s1 hor
    have hd : Decides ids r (fillT r o s) := by
      refine ⟨fillT_length _ _ _, fun j => ⟨fun hj => ?_, fun hj => fillT_other _ _ _ _ (fun h => hj ((hmo j).mp h))⟩⟩
      obtain ⟨t, ht⟩ := List.mem_iff_getElem?.mp ((hmo j).mpr hj)
      have htl : t < s.length := by rw [s1]; exact (List.getElem?_eq_some_iff.mp ht).1
      rw [hat t j ht, List.getElem?_eq_getElem htl]
      rcases s2 s[t] (List.getElem_mem _) with h | h <;> simp [h]
    refine ⟨hd, ?_⟩
    rw [hsum _ hd, count_at s1 hat, s3]
    omega
  · rintro ⟨hd, hb⟩
    have h1 := hsum _ hd
    have h2 := hcnt r'
    rw [if_neg (by omega), List.mem_map]
    have h01 : ∀ j ∈ o, r'[j]? = some 0 ∨ r'[j]? = some 1 := fun j hj => (hd.2 j).1 ((hmo j).mp hj)
    have hsl : (o.map fun j => (r'[j]?).getD 0).length = o.length := List.length_map _
    have hat : ∀ t i : Nat, o[t]? = some i → r'[i]? = (o.map fun j => (r'[j]?).getD 0)[t]? := by
      intro t i ht
      rw [List.getElem?_map, ht, Option.map_some]
      rcases h01 i (List.mem_of_getElem? ht) with h | h <;> rw [h] <;> rfl
    refine ⟨o.map fun j => (r'[j]?).getD 0, ((enumerateSub_spec _ _).2 _).mpr ⟨hsl, ?_, ?_⟩, ?_⟩
    · intro x hx
      obtain ⟨j, hj, rfl⟩ := List.mem_map.mp hx
      rcases h01 j hj with h | h <;> rw [h] <;> simp
    · rw [← count_at hsl hat]
      omega
    · apply List.ext_getElem?
      intro j
      by_cases hj : j ∈ o
      · obtain ⟨t, ht⟩ := List.mem_iff_getElem?.mp hj
        rw [fillT_at _ _ _ hon hsl hor t j ht, hat t j ht]
      · rw [fillT_other _ _ _ _ hj, (hd.2 j).2 (fun h => hj ((hmo j).mpr h))]

theorem outs_nodup {ids : List Nat} {b : Int} {r : List Nat} (hn : ids.Nodup) (hids : ∀ j ∈ ids, j < r.length) :
    (enuOuts ids (ids.filter fun j => r[j]? = some 2) b r).Nodup := by
  unfold enuOuts
  split
  · exact List.nodup_nil
  · refine List.Nodup.map_on ?_ (enumerateSub_spec _ _).1
    intro s hs s' hs' he
    have h1 := (((enumerateSub_spec _ _).2 s).mp hs).1
    have h2 := (((enumerateSub_spec _ _).2 s').mp hs').1
    have hor : ∀ j ∈ ids.filter (fun j => r[j]? = some 2), j < r.length := fun j hj => hids j (List.mem_filter.mp hj).1
    apply List.ext_getElem?
    intro t
    by_cases ht : t < (ids.filter fun j => r[j]? = some 2).length
    · have hg := List.getElem?_eq_getElem ht
      have a1 := fillT_at _ s r (hn.filter _) h1 hor t _ hg
      have a2 := fillT_at _ s' r (hn.filter _) h2 hor t _ hg
      rw [← a1, ← a2, he]
    · rw [List.getElem?_eq_none (by omega), List.getElem?_eq_none (by omega)]

/-- **C62.** One step of the row enumeration: when the table is not empty, its rows leave the same cells open and the cells of
the equation are different and in range, the step does not panic, and the new table holds exactly the ways of deciding the
open cells of the equation, row by row, that give it `b` mines; none of them twice; and the rows again leave the same cells
open. -/
theorem C62_step {all : List (List Nat)} {ids : List Nat} {b : Int} (hne : all ≠ []) (hn : ids.Nodup)
    (hids : ∀ r ∈ all, ∀ j ∈ ids, j < r.length) (hs : SameOpen all) :
    ∃ out, enuOneStep all ids b = some out ∧
      (∀ r', r' ∈ out ↔ ∃ r ∈ all, Decides ids r r' ∧ (minesAmong ids r' : Int) = b) ∧
      (all.Nodup → out.Nodup) ∧ SameOpen out := by
  obtain ⟨out, h1, h2⟩ := enuOneStep_perm (b := b) hne hn hids hs
  have hmem : ∀ r', r' ∈ out ↔ ∃ r ∈ all, Decides ids r r' ∧ (minesAmong ids r' : Int) = b := by
    intro r'
    rw [h2.mem_iff, List.mem_flatMap]
    constructor
    · rintro ⟨r, hr, h⟩; exact ⟨r, hr, (mem_outs hn (hids r hr) r').mp h⟩
    · rintro ⟨r, hr, h⟩; exact ⟨r, hr, (mem_outs hn (hids r hr) r').mpr h⟩
  refine ⟨out, h1, hmem, fun hnd => ?_, ?_⟩
  · rw [h2.nodup_iff, List.nodup_flatMap]
    refine ⟨fun r hr => outs_nodup hn (hids r hr), ?_⟩
    refine hnd.pairwise_of_forall_ne ?_
    intro r hr q hq hrq x hx hx'
    have d1 := ((mem_outs hn (hids r hr) x).mp hx).1
    have d2 := ((mem_outs hn (hids q hq) x).mp hx').1
    apply hrq
    apply List.ext_getElem?
    intro j
    have ho := (hs r hr q hq).2 j
    by_cases h : j ∈ ids ∧ r[j]? = some 2
    · rw [h.2, ho.mp h.2]
    · rw [← (d1.2 j).2 h, ← (d2.2 j).2 (fun hh => h ⟨hh.1, ho.mpr hh.2⟩)]
  · intro x hx y hy
    obtain ⟨r, hr, d1, -⟩ := (hmem x).mp hx
    obtain ⟨q, hq, d2, -⟩ := (hmem y).mp hy
    have ho := hs r hr q hq
    have aux : ∀ {r x : List Nat}, Decides ids r x → ∀ j : Nat, x[j]? = some 2 ↔ r[j]? = some 2 ∧ j ∉ ids := by
      intro r x d j
      by_cases h : j ∈ ids ∧ r[j]? = some 2
      · constructor
        · intro hx
          rcases (d.2 j).1 h with h' | h' <;> rw [h'] at hx <;> cases hx
        · intro hx; exact absurd h.1 hx.2
      · rw [(d.2 j).2 h]
        constructor
        · intro hx; exact ⟨hx, fun hj => h ⟨hj, hx⟩⟩
        · exact fun hx => hx.1
    refine ⟨by rw [d1.1, d2.1, ho.1], fun j => ?_⟩
    rw [aux d1, aux d2, ho.2 j]

/-- A table with no row left: the step panics as soon as the equation has a cell. -/
theorem C62_empty {ids : List Nat} {b : Int} : enuOneStep [] ids b = none ↔ ids ≠ [] := by
  cases ids with
  | nil => constructor
           · intro h; exact absurd h (by unfold enuOneStep newIds; simp)
           · intro h; exact absurd rfl h
  | cons a l =>
    constructor
    · intro _; simp
    · intro _; rfl

/-- The table of a system: one step per equation, from the row that leaves every cell open. -/
def enuSystem (n : Nat) (eqs : List (List Nat × Nat)) : Option (List (List Nat)) :=
  eqs.foldlM (m := Option) (fun t e => enuOneStep t e.1 (e.2 : Int)) [List.replicate n 2]

/-- **C62.** The steps of a solvable system do not panic, and the table they end with is the list of the solutions of the
system, each once. -/
theorem C62_system {n : Nat} : ∀ {eqs : List (List Nat × Nat)}, (∀ e ∈ eqs, e.1.Nodup ∧ ∀ j ∈ e.1, j < n) →
    (∃ r, SolvesRow n eqs r) → ∃ T, enuSystem n eqs = some T ∧ T.Nodup ∧ ∀ r, r ∈ T ↔ SolvesRow n eqs r := by
  intro eqs
  suffices H : (∀ e ∈ eqs, e.1.Nodup ∧ ∀ j ∈ e.1, j < n) → (∃ r, SolvesRow n eqs r) →
      ∃ T, enuSystem n eqs = some T ∧ T.Nodup ∧ SameOpen T ∧ ∀ r, r ∈ T ↔ SolvesRow n eqs r by
    intro h1 h2
    obtain ⟨T, a, b, -, c⟩ := H h1 h2
    exact ⟨T, a, b, c⟩
  induction eqs using List.reverseRecOn with
  | nil =>
    intro _ _
    refine ⟨[List.replicate n 2], rfl, by simp, ?_, ?_⟩
    · intro r hr q hq
      rw [List.mem_singleton] at hr hq
      subst hr; subst hq
      exact ⟨rfl, fun _ => Iff.rfl⟩
    · intro r
      rw [List.mem_singleton]
      constructor
      · rintro rfl
        exact ⟨by simp, by simp, by simp +contextual, by simp⟩
      · rintro ⟨h1, -, h3, -⟩
        apply List.ext_getElem?
        intro j
        rw [List.getElem?_replicate]
        split
        · exact h3 j (by assumption) (by simp)
        · exact List.getElem?_eq_none (by omega)
  | append_singleton eqs e ih =>
    intro hv hsol
    -- a solution of all equations, opened again outside the first ones, solves those
    have down : ∀ r, SolvesRow n (eqs ++ [e]) r → ∃ q, SolvesRow n eqs q ∧ Decides e.1 q r := by
      rintro r ⟨h1, h2, h3, h4⟩
      let q : List Nat := (List.range n).map fun j => if ∃ e ∈ eqs, j ∈ e.1 then (r[j]?).getD 0 else 2
      have hq : ∀ j < n, q[j]? = if ∃ e ∈ eqs, j ∈ e.1 then r[j]? else some 2 := by
        intro j hj
        show ((List.range n).map _)[j]? = _
        rw [List.getElem?_map, List.getElem?_range hj, Option.map_some]
        split
        · rw [List.getElem?_eq_getElem (by omega)]; rfl
        · rfl
      have hql : q.length = n := by simp [q]
      refine ⟨q, ⟨hql, ?_, ?_, ?_⟩, by omega, ?_⟩
      · rintro j hj ⟨f, hf, hjf⟩
        rw [hq j hj, if_pos ⟨f, hf, hjf⟩]
        exact h2 j hj ⟨f, by simp [hf], hjf⟩
      · intro j hj hno
        rw [hq j hj, if_neg hno]
      · intro f hf
        rw [← h4 f (by simp [hf])]
        unfold minesAmong
        congr 1
        apply List.filter_congr
        intro j hj
        rw [hq j ((hv f (by simp [hf])).2 j hj), if_pos ⟨f, hf, hj⟩]
      · intro j
        by_cases hj : j < n
        · rw [hq j hj]
          by_cases hin : ∃ e ∈ eqs, j ∈ e.1
          · simp only [hin, if_true]
            obtain ⟨f, hf, hjf⟩ := hin
            have h01 := h2 j hj ⟨f, by simp [hf], hjf⟩
            refine ⟨fun _ => h01, fun _ => trivial⟩
          · rw [if_neg hin]
            refine ⟨fun h => h2 j hj ⟨e, by simp, h.1⟩, fun h => ?_⟩
            refine h3 j hj ?_
            rintro ⟨f, hf, hjf⟩
            rw [List.mem_append, List.mem_singleton] at hf
            rcases hf with hf | rfl
            · exact hin ⟨f, hf, hjf⟩
            · exact h ⟨hjf, rfl⟩
        · refine ⟨fun h => absurd ((hv e (by simp)).2 j h.1) hj, fun _ => ?_⟩
          rw [List.getElem?_eq_none (by omega), List.getElem?_eq_none (by omega)]
    have hv' : ∀ f ∈ eqs, f.1.Nodup ∧ ∀ j ∈ f.1, j < n := fun f hf => hv f (by simp [hf])
    obtain ⟨r0, hr0⟩ := hsol
    obtain ⟨q0, hq0, -⟩ := down r0 hr0
    obtain ⟨T, t1, t2, t3, t4⟩ := ih hv' ⟨q0, hq0⟩
    have hTne : T ≠ [] := List.ne_nil_of_mem ((t4 q0).mpr hq0)
    obtain ⟨out, o1, o2, o3, o4⟩ := C62_step (b := (e.2 : Int)) hTne (hv e (by simp)).1
      (fun r hr j hj => by rw [((t4 r).mp hr).1]; exact (hv e (by simp)).2 j hj) t3
    refine ⟨out, ?_, o3 t2, o4, fun r => ?_⟩
    · unfold enuSystem at t1 ⊢
      rw [List.foldlM_append, t1]
      simp [o1]
    · rw [o2]
      constructor
      · rintro ⟨q, hq, hd, hm⟩
        obtain ⟨q1, q2, q3, q4⟩ := (t4 q).mp hq
        refine ⟨by rw [hd.1, q1], ?_, ?_, ?_⟩
        · rintro j hj ⟨f, hf, hjf⟩
          by_cases hin : ∃ e ∈ eqs, j ∈ e.1
          · have := q2 j hj hin
            rw [(hd.2 j).2 (by rintro ⟨-, h⟩; rcases this with h' | h' <;> rw [h'] at h <;> cases h)]
            exact this
          · rw [List.mem_append, List.mem_singleton] at hf
            rcases hf with hf | rfl
            · exact absurd ⟨f, hf, hjf⟩ hin
            · exact (hd.2 j).1 ⟨hjf, q3 j hj hin⟩
        · intro j hj hno
          have hne : j ∉ e.1 := fun h => hno ⟨e, by simp, h⟩
          rw [(hd.2 j).2 (fun h => hne h.1)]
          exact q3 j hj (fun ⟨f, hf, hjf⟩ => hno ⟨f, by simp [hf], hjf⟩)
        · intro f hf
          rw [List.mem_append, List.mem_singleton] at hf
          rcases hf with hf | rfl
          · rw [← q4 f hf]
            unfold minesAmong
            congr 1
            apply List.filter_congr
            intro j hj
            have := q2 j ((hv' f hf).2 j hj) ⟨f, hf, hj⟩
            rw [(hd.2 j).2 (by rintro ⟨-, h⟩; rcases this with h' | h' <;> rw [h'] at h <;> cases h)]
          · exact_mod_cast hm
      · intro hr
        obtain ⟨q, hq, hd⟩ := down r hr
        exact ⟨q, (t4 q).mpr hq, hd, by exact_mod_cast hr.2.2.2 e (by simp)⟩

/-- The hypotheses of `C62_system` are met: three cells, one mine among the first two, one among the last two. -/
example : (∀ e ∈ [([0, 1], 1), ([1, 2], 1)], e.1.Nodup ∧ ∀ j ∈ e.1, j < 3) ∧ SolvesRow 3 [([0, 1], 1), ([1, 2], 1)] [0, 1, 0] := by
  unfold SolvesRow minesAmong
  decide

example : enuSystem 3 [([0, 1], 1), ([1, 2], 1)] = some [[1, 0, 1], [0, 1, 0]] := by decide +kernel

/-- **C62, refuted without the hypotheses.** A system without a solution ends with an empty table only when the last equation
is the one that fails; otherwise the next step panics.  And rows that leave different cells open are decided by the cells the
first row leaves open: here the second row keeps its open cell and counts too few mines. -/
theorem C62_refuted :
    enuSystem 2 [([0], 2), ([1], 1)] = none ∧ enuSystem 2 [([0], 2)] = some [] ∧
    (∃ r' ∈ (enuOneStep [[0, 2], [2, 1]] [0, 1] 1).getD [], ¬ ∃ r ∈ [[0, 2], [2, 1]], Decides [0, 1] r r' ∧ minesAmong [0, 1] r' = 1) := by
  refine ⟨by decide +kernel, by decide +kernel, [2, 0], by decide +kernel, ?_⟩
  rintro ⟨r, hr, hd, hm⟩
  exact absurd hm (by decide)

end Ms.Properties
