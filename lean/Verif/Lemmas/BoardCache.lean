import Verif.Lemmas.Metrics
import Verif.Model.BoardCache

namespace Ms
open Spec

theorem calCellNums_ok {v : View} (h : ∀ p ∈ vcells v, val v p ≤ 8) :
    calCellNums v = some ((List.range 9).map fun k =>
      ((vcells v).filter fun p => val v p = ((k : Nat) : Int)).card) := by
  obtain ⟨ans, h1, h2, h3⟩ := cellNums_loop v (cells v.row v.col) (List.replicate 9 0) (by simp)
    (fun p hp => h p (mem_cells_grid.mp hp))
  unfold calCellNums
  rw [h1]
  congr 1
  apply List.ext_getElem
  · simp [h2]
  · intro k hk hk'
    have hk9 : k < 9 := by rw [h2] at hk; exact hk
    have := h3 k hk9
    rw [filter_cells_card, List.getD_eq_getElem?_getD, List.getElem?_eq_getElem hk] at this
    simp only [Option.getD_some] at this
    rw [this]
    have e : (List.replicate 9 0).getD k 0 = 0 := by
      rw [List.getD_eq_getElem?_getD, List.getElem?_replicate]; simp [hk9]
    rw [e]
    simp [vcells]

theorem calCellNums_none {v : View} (h : ∃ p ∈ vcells v, 8 < val v p) : calCellNums v = none := by
  obtain ⟨p, hp, h8⟩ := h
  exact cellNums_panic v _ _ ⟨p, mem_cells_grid.mpr hp, h8⟩

/-- which of `get_op`, `get_bbbv` came first in a history -/
def firstOB : List Getter → Option Getter
  | [] => none
  | .op :: _ => some .op
  | .bbbv :: _ => some .bbbv
  | _ :: gs => firstOB gs

/-- the cache after a history -/
structure CacheInv (b : Board) (h : List Getter) (s : BoardCache) : Prop where
  board : s.board = b
  bbbv : s.bbbv = 0
  hasBbbv : s.hasBbbv = decide (Getter.bbbv ∈ h)
  openings : s.openings = if firstOB h = some .bbbv then calOp b.view else 0
  hasOpenings : s.hasOpenings = (firstOB h).isSome
  islands : s.islands = 0
  hasIslands : s.hasIslands = decide (Getter.isl ∈ h)
  cells : s.hasCells = true → calCellNums b.view = some s.cellNums

theorem firstOB_append (h : List Getter) (g : Getter) :
    firstOB (h ++ [g]) = (firstOB h).or (firstOB [g]) := by
  induction h with
  | nil => simp [firstOB]
  | cons a h ih => cases a <;> simp [firstOB, ih]

theorem firstOB_none {h : List Getter} : firstOB h = none ↔ Getter.op ∉ h ∧ Getter.bbbv ∉ h := by
  induction h with
  | nil => simp [firstOB]
  | cons a h ih => cases a <;> simp [firstOB, ih]

theorem firstOB_cases (h : List Getter) :
    firstOB h = none ∨ firstOB h = some .op ∨ firstOB h = some .bbbv := by
  induction h with
  | nil => simp [firstOB]
  | cons a h ih => cases a <;> simp [firstOB, ih]

theorem firstOB_bbbv_mem {h : List Getter} (h' : firstOB h = some .bbbv) : Getter.bbbv ∈ h := by
  induction h with
  | nil => simp [firstOB] at h'
  | cons a h ih => cases a <;> simp_all [firstOB]

theorem CacheInv.step {b : Board} {h : List Getter} {s : BoardCache} (hI : CacheInv b h s)
    (g : Getter) (hv : ∀ p ∈ vcells b.view, val b.view p ≤ 8) :
    ∃ s' a, s.call g = some (s', a) ∧ CacheInv b (h ++ [g]) s' ∧
      a = (match g with
        | .bbbv => if Getter.bbbv ∈ h then 0
            else if Getter.op ∈ h then cal3BVonIsland b.view
            else calBbbv b.view
        | .op => if firstOB h = some .op then 0 else calOp b.view
        | .isl => if Getter.isl ∈ h then 0 else calIsl b.view
        | .cell k => ((vcells b.view).filter fun p => val b.view p = ((k : Nat) : Int)).card) := by
  obtain ⟨h1, h2, h3, h4, h5, h6, h7, h8⟩ := hI
  obtain ⟨sb, s1, s2, s3, s4, s5, s6, s7, s8⟩ := s
  simp only at h1 h2 h3 h4 h5 h6 h7 h8
  subst h1 h2 h3 h4 h5 h6 h7
  cases g with
  | bbbv =>
    simp only [BoardCache.call, BoardCache.getBbbv]
    by_cases hb : Getter.bbbv ∈ h
    · have hf : firstOB (h ++ [Getter.bbbv]) = firstOB h := by
        rcases firstOB_cases h with h' | h' | h'
        · exact absurd hb (firstOB_none.mp h').2
        · simp [firstOB_append, h']
        · simp [firstOB_append, h']
      simp only [hb, decide_true, if_true]
      exact ⟨_, _, rfl, ⟨rfl, rfl, by simp, by rw [hf], by rw [hf], rfl, by simp, h8⟩, rfl⟩
    · rcases firstOB_cases h with h' | h' | h'
      · have ho := (firstOB_none.mp h').1
        simp only [hb, ho, h', decide_false, Bool.false_eq_true, if_false, Option.isSome_none,
          Bool.not_false, if_true]
        exact ⟨_, _, rfl, ⟨rfl, rfl, by simp, by simp [firstOB_append, h', firstOB],
          by simp [firstOB_append, h', firstOB], rfl, by simp, h8⟩, rfl⟩
      · have ho : Getter.op ∈ h := by
          by_contra hn
          rw [firstOB_none.mpr ⟨hn, hb⟩] at h'
          simp at h'
        simp only [hb, ho, h', decide_false, Bool.false_eq_true, if_false, Option.isSome_some,
          Bool.not_true, if_true]
        exact ⟨_, _, rfl, ⟨rfl, rfl, by simp, by simp [firstOB_append, h'],
          by simp [firstOB_append, h'], rfl, by simp, h8⟩, by simp⟩
      · exact absurd (firstOB_bbbv_mem h') hb
  | op =>
    simp only [BoardCache.call, BoardCache.getOp]
    rcases firstOB_cases h with h' | h' | h'
    · simp only [h', Option.isSome_none, Bool.false_eq_true, if_false]
      exact ⟨_, _, rfl, ⟨rfl, rfl, by simp, by simp [firstOB_append, h', firstOB],
          by simp [firstOB_append, h', firstOB], rfl, by simp, h8⟩, by simp⟩
    · simp only [h', Option.isSome_some, if_true]
      exact ⟨_, _, rfl, ⟨rfl, rfl, by simp, by simp [firstOB_append, h'],
          by simp [firstOB_append, h'], rfl, by simp, h8⟩, by simp⟩
    · simp only [h', Option.isSome_some, if_true]
      exact ⟨_, _, rfl, ⟨rfl, rfl, by simp, by simp [firstOB_append, h'],
          by simp [firstOB_append, h'], rfl, by simp, h8⟩, by simp⟩
  | isl =>
    simp only [BoardCache.call, BoardCache.getIsl]
    have e : firstOB (h ++ [Getter.isl]) = firstOB h := by
      rw [firstOB_append]; simp [firstOB]
    by_cases hb : Getter.isl ∈ h
    · simp only [hb, decide_true, if_true]
      exact ⟨_, _, rfl, ⟨rfl, rfl, by simp, by rw [e], by rw [e], rfl, by simp, h8⟩, rfl⟩
    · simp only [hb, decide_false, Bool.false_eq_true, if_false]
      exact ⟨_, _, rfl, ⟨rfl, rfl, by simp, by rw [e], by rw [e], rfl, by simp, h8⟩, rfl⟩
  | cell k =>
    have e : firstOB (h ++ [Getter.cell k]) = firstOB h := by
      rw [firstOB_append]; simp [firstOB]
    have hc := calCellNums_ok hv
    simp only [BoardCache.call, BoardCache.getCell]
    by_cases hb : s8 = true
    · have := h8 hb
      simp only [hb, if_true]
      refine ⟨_, _, rfl, ⟨rfl, rfl, by simp, by rw [e], by rw [e], rfl, by simp, fun _ => this⟩, ?_⟩
      rw [hc] at this
      simp only [Option.some.injEq] at this
      simp [← this, List.getD_eq_getElem?_getD]
    · simp only [hb, if_false, BoardCache.calCells, hc, Option.map_some, Bool.false_eq_true]
      exact ⟨_, _, rfl, ⟨rfl, rfl, by simp, by rw [e], by rw [e], rfl, by simp, fun _ => hc⟩,
        by simp [List.getD_eq_getElem?_getD]⟩

end Ms
