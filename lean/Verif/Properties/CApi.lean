import Verif.SpecC
import Mathlib.Data.List.Forall2

/-! # Property C81: boards handed to C programs -/

namespace Ms.Properties
open Spec

variable {α : Type}

/-- the pointer of a row -/
def RowAt (size : Nat) (h : CHeap α) (p : Nat) (r : Nat × List α) : Prop :=
  (r.1 = 0 → p = 0) ∧ (r.1 ≠ 0 → h.block p = some (⟨r.1 * size, size⟩, .cells r.2))

theorem vec_sound {h : CHeap α} (hh : SoundHeap h) (size align cap : Nat) (d : CData α) :
    SoundHeap (h.vec size align cap d).1 ∧ (∀ p x, h.block p = some x → (h.vec size align cap d).1.block p = some x) ∧
    (cap = 0 → (h.vec size align cap d).2 = 0) ∧
    (cap ≠ 0 → (h.vec size align cap d).1.block (h.vec size align cap d).2 = some (⟨cap * size, align⟩, d)) := by
  unfold CHeap.vec
  by_cases hc : cap = 0
  · simp only [hc, if_true]
    exact ⟨hh, fun _ _ hx => hx, fun _ => by trivial, fun h => absurd rfl h⟩
  · simp only [hc, if_false]
    refine ⟨⟨fun p hp => ?_, ?_, Nat.succ_pos _⟩, fun p x hx => ?_, fun h => h.elim, fun _ => by simp⟩
    · have hp' : h.next + 1 ≤ p := hp
      show (if p = h.next then _ else h.block p) = none
      rw [if_neg (by omega)]
      exact hh.fresh p (by omega)
    · show (if 0 = h.next then _ else h.block 0) = none
      have := hh.pos
      rw [if_neg (by omega)]
      exact hh.zero
    · show (if p = h.next then _ else h.block p) = some x
      rw [if_neg, hx]
      intro he
      rw [hh.fresh p (by omega)] at hx
      simp at hx

theorem RowAt.mono {size : Nat} {h h' : CHeap α} (hp : ∀ p x, h.block p = some x → h'.block p = some x) {p : Nat} {r : Nat × List α}
    (hr : RowAt size h p r) : RowAt size h' p r := ⟨hr.1, fun hc => hp _ _ (hr.2 hc)⟩

theorem vecs_sound (size : Nat) : ∀ (m : List (Nat × List α)) {h : CHeap α}, SoundHeap h →
    SoundHeap (h.vecs size m).1 ∧ (∀ p x, h.block p = some x → (h.vecs size m).1.block p = some x) ∧
    List.Forall₂ (RowAt size (h.vecs size m).1) (h.vecs size m).2 m
  | [], h, hh => ⟨hh, fun _ _ hx => hx, .nil⟩
  | (cap, l) :: m, h, hh => by
    obtain ⟨h1, h2, h3, h4⟩ := vec_sound hh size size cap (.cells l)
    obtain ⟨g1, g2, g3⟩ := vecs_sound size m h1
    refine ⟨g1, fun p x hx => g2 _ _ (h2 _ _ hx), .cons ?_ g3⟩
    exact RowAt.mono g2 ⟨h3, h4⟩

/-- everything about the board made -/
theorem toC_sound {h : CHeap α} (hh : SoundHeap h) (size w : Nat) (m : List (Nat × List α)) (rcap : Nat) :
    SoundHeap (h.toC size w m rcap).1 ∧ (∀ p x, h.block p = some x → (h.toC size w m rcap).1.block p = some x) ∧
    (h.toC size w m rcap).2.nRow = m.length ∧
    ∃ ps : List Nat, List.Forall₂ (RowAt size (h.toC size w m rcap).1) ps m ∧
      (rcap = 0 → (h.toC size w m rcap).2.rows = 0) ∧
      (rcap ≠ 0 → (h.toC size w m rcap).1.block (h.toC size w m rcap).2.rows = some (⟨rcap * (2 * w), w⟩,
        .rows (ps.map fun q => ⟨q, ((m.map (·.2.length)).head?).getD 0⟩))) := by
  obtain ⟨g1, g2, g3⟩ := vecs_sound size m hh
  obtain ⟨h1, h2, h3, h4⟩ := vec_sound g1 (2 * w) w rcap
    (.rows ((h.vecs size m).2.map fun q => ⟨q, ((m.map (·.2.length)).head?).getD 0⟩))
  exact ⟨h1, fun p x hx => h2 _ _ (g2 _ _ hx), rfl, _, g3.imp (fun _ _ => RowAt.mono h2), h3, h4⟩

theorem mapM_readRow {h : CHeap α} {size n : Nat} : ∀ {ps : List Nat} {m : List (Nat × List α)}, List.Forall₂ (RowAt size h) ps m →
    (∀ r ∈ m, r.2.length = n ∧ n ≤ r.1) → (ps.map fun q => (⟨q, n⟩ : CRow)).mapM h.readRow = some (m.map (·.2))
  | _, _, .nil, _ => rfl
  | _, _, .cons (a := p) (b := r) hr hrs, hm => by
    have h1 := hm r List.mem_cons_self
    have h2 : h.readRow ⟨p, n⟩ = some r.2 := by
      unfold CHeap.readRow
      by_cases hn : n = 0
      · simp only [hn, if_true]
        have : r.2.length = 0 := by omega
        rw [List.length_eq_zero_iff.mp this]
      · simp only [hn, if_false]
        rw [hr.2 (by omega)]
        simp only
        rw [if_pos (by omega), List.take_of_length_le (by omega)]
    rw [List.map_cons, List.mapM_cons, h2, mapM_readRow hrs fun r hr => hm r (List.mem_cons_of_mem _ hr)]
    rfl

theorem rectVec_first {m : List (Nat × List α)} (hm : RectVec m) :
    ∀ r ∈ m, r.2.length = ((m.map (·.2.length)).head?).getD 0 ∧ ((m.map (·.2.length)).head?).getD 0 ≤ r.1 := by
  intro r hr
  cases m with
  | nil => simp at hr
  | cons r0 m =>
    have h1 := hm.2 r hr r0 List.mem_cons_self
    have h2 := hm.1 r hr
    simp only [List.map_cons, List.head?_cons, Option.getD_some]
    omega

/-- **C81 (part)** For every matrix of equal rows and every way the allocator rounds up capacities: the board handed out can be
read back in bounds and holds exactly the cells, a C program sees every cell at its place, and no other block of the
program's memory is touched. -/
theorem C81_board_partial (h : CHeap α) (hh : SoundHeap h) (size w : Nat) (m : List (Nat × List α)) (rcap : Nat) (hm : RectVec m)
    (hr : m.length ≤ rcap) :
    (h.toC size w m rcap).1.fromC (h.toC size w m rcap).2 = some (m.map (·.2)) ∧
    (∀ i j, seen (h.toC size w m rcap).1 (h.toC size w m rcap).2 i j = ((m.map (·.2))[i]?).bind (·[j]?)) ∧
    (∀ p x, h.block p = some x → (h.toC size w m rcap).1.block p = some x) := by
  obtain ⟨h1, h2, h3, ps, h4, h5, h6⟩ := toC_sound hh size w m rcap
  have hf := rectVec_first hm
  refine ⟨?_, fun i j => ?_, h2⟩
  · unfold CHeap.fromC
    rw [h3]
    by_cases hl : m.length = 0
    · rw [if_pos hl, List.length_eq_zero_iff.mp hl]; rfl
    · rw [if_neg hl, h6 (by omega)]
      simp only
      have hlen : (ps.map fun q => (⟨q, ((m.map (·.2.length)).head?).getD 0⟩ : CRow)).length = m.length := by
        rw [List.length_map, h4.length_eq]
      rw [if_pos (by omega), List.take_of_length_le (by omega)]
      exact mapM_readRow h4 hf
  · unfold seen
    by_cases hl : rcap = 0
    · have : m = [] := List.length_eq_zero_iff.mp (by omega)
      rw [h5 hl, h1.zero, this]
      simp
    · rw [h6 hl]
      simp only
      rw [List.getElem?_map, List.getElem?_map]
      by_cases hi : i < m.length
      · have hi' : i < ps.length := by rw [h4.length_eq]; exact hi
        rw [List.getElem?_eq_getElem hi', List.getElem?_eq_getElem hi]
        simp only [Option.map_some, Option.bind_some]
        have hrow := List.Forall₂.get h4 hi' hi
        simp only [List.get_eq_getElem] at hrow
        by_cases hc : m[i].1 = 0
        · rw [hrow.1 hc, h1.zero]
          have := hm.1 m[i] (List.getElem_mem hi)
          rw [List.length_eq_zero_iff.mp (by omega : m[i].2.length = 0)]
          simp
        · rw [hrow.2 hc]
      · rw [List.getElem?_eq_none (by rw [h4.length_eq]; omega), List.getElem?_eq_none (by omega)]
        simp

/-- **C81** `free_board` (and `free_board_poss`) is undefined behaviour for every board handed out, whatever its size and the
allocator: the layouts it passes are never those the blocks were allocated with. -/
theorem C81_free_undefined (h : CHeap α) (hh : SoundHeap h) (size w : Nat) (m : List (Nat × List α)) (rcap : Nat) (hm : RectVec m)
    (hr : m.length ≤ rcap) (hs : 2 ≤ size) (hw : 1 ≤ w) :
    (h.toC size w m rcap).1.freeBoard size w (h.toC size w m rcap).2 = none := by
  obtain ⟨h1, h2, h3, ps, h4, h5, h6⟩ := toC_sound hh size w m rcap
  have hf := rectVec_first hm
  unfold CHeap.freeBoard
  rw [h3]
  by_cases hl : m.length = 0
  · rw [if_pos hl]
    unfold CHeap.dealloc
    by_cases hc : rcap = 0
    · rw [h5 hc, h1.zero]
    · rw [h6 hc]
      simp only
      rw [if_neg]
      intro he
      have := congrArg CLayout.size he
      have h0 : rcap * (2 * w) = 0 := this
      have := Nat.mul_pos (Nat.pos_of_ne_zero hc) (show 0 < 2 * w by omega)
      omega
  · rw [if_neg hl, h6 (by omega)]
    simp only
    split
    · generalize (h.toC size w m rcap).1 = g at *
      cases m with
      | nil => simp at hl
      | cons r m =>
        cases ps with
        | nil => cases h4
        | cons p ps =>
          have hrow : RowAt size g p r := by cases h4; assumption
          have hr0 := hm.1 r List.mem_cons_self
          have : g.dealloc p ⟨r.2.length, size⟩ = none := by
            unfold CHeap.dealloc
            by_cases hc : r.1 = 0
            · rw [hrow.1 hc, h1.zero]
            · rw [hrow.2 hc]
              simp only
              rw [if_neg]
              intro he
              have h0 : r.1 * size = r.2.length := congrArg CLayout.size he
              have := Nat.mul_le_mul_left r.1 hs
              omega
          simp only [List.map_cons, List.head?_cons, Option.getD_some, List.length_cons, List.take_succ_cons, CHeap.freeRows, this,
            Option.bind_none]
    · rfl

/-- an empty heap -/
def heapSample : CHeap Int := ⟨fun _ => none, 1⟩

/-- two rows of three cells, one with a larger capacity -/
def rowsSample : List (Nat × List Int) := [(3, [1, -1, 1]), (4, [1, 1, 1])]

example : SoundHeap heapSample ∧ RectVec rowsSample := ⟨⟨fun _ _ => rfl, rfl, by decide⟩, by unfold RectVec; decide⟩

example : (heapSample.toC 4 8 rowsSample 4).1.fromC (heapSample.toC 4 8 rowsSample 4).2 = some [[1, -1, 1], [1, 1, 1]] := by decide

/-- with the layouts of the allocation the same blocks can be given back, and nothing is left -/
example : (((heapSample.toC 4 8 rowsSample 4).1.dealloc 1 ⟨12, 4⟩).bind fun h => (h.dealloc 2 ⟨16, 4⟩).bind fun h =>
    (h.dealloc 3 ⟨64, 8⟩).map fun h => (List.range 5).all fun p => (h.block p).isNone) = some true := by decide

/-- rows of different lengths would be read out of bounds: every row is given the length of the first -/
example : (heapSample.toC 4 8 [(2, [1, 2]), (1, [3])] 4).1.fromC (heapSample.toC 4 8 [(2, [1, 2]), (1, [3])] 4).2 = none := by decide

end Ms.Properties
