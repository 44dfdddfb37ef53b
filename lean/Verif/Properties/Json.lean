import Verif.Lemmas.JsonText
import Verif.Lemmas.GameReach
import Verif.Properties.Metrics
import Verif.Properties.Laymine
import Verif.Properties.Gen
import Verif.Properties.Game

/-! # C86: boards and operations as JSON texts (the wasm package) -/

namespace Ms.Properties
open Ms.Spec

/-! ### helpers -/

theorem mapM_forall2 {α β : Type} {f : α → Option β} : ∀ {l : List α} {m : List β},
    l.mapM f = some m ↔ List.Forall₂ (fun a b => f a = some b) l m
  | [], m => by
    simp only [List.mapM_nil, List.forall₂_nil_left_iff]
    exact ⟨fun h => (Option.some.inj h).symm, fun h => by rw [h]; rfl⟩
  | a :: l, m => by
    rw [List.mapM_cons]
    cases ha : f a with
    | none =>
      constructor
      · intro h; exact absurd h (by simp)
      · intro h
        cases h with
        | cons h1 _ => rw [ha] at h1; simp at h1
    | some b =>
      cases hl : l.mapM f with
      | none =>
        constructor
        · intro h; exact absurd h (by simp)
        · intro h
          cases h with
          | cons _ h2 => rw [mapM_forall2.mpr h2] at hl; simp at hl
      | some bs =>
        constructor
        · intro h
          simp only [Option.bind_eq_bind, Option.bind_some, Option.pure_def, Option.some.injEq] at h
          subst h
          exact List.Forall₂.cons ha (mapM_forall2.mp hl)
        · intro h
          cases h with
          | cons h1 h2 =>
            rw [ha, Option.some.injEq] at h1
            rw [mapM_forall2.mpr h2, Option.some.injEq] at hl
            rw [h1, hl]; rfl

theorem wrapI32_spec (n : Int) : Word32 n (wrapI32 n) := by
  unfold Word32 wrapI32
  rw [Int.bmod_def]
  split <;> omega

theorem word32_eq {n c : Int} (h : Word32 n c) : wrapI32 n = c := by
  have := wrapI32_spec n
  unfold Word32 at h this
  omega

theorem word32_iff {n c : Int} : wrapI32 n = c ↔ Word32 n c := ⟨fun h => h ▸ wrapI32_spec n, word32_eq⟩

theorem word32_self {n : Int} (h1 : -2 ^ 31 ≤ n) (h2 : n < 2 ^ 31) : wrapI32 n = n :=
  word32_eq ⟨h1, h2, by simp⟩

theorem jsonCell_iff {v : JVal} {c : Int} :
    jsonCell v = some c ↔ ∃ n : Int, v = .int n ∧ (-2 ^ 63 ≤ n ∧ n < 2 ^ 63) ∧ Word32 n c := by
  unfold jsonCell JVal.asI64
  cases v with
  | int n =>
    by_cases h : -2 ^ 63 ≤ n ∧ n < 2 ^ 63
    · simp only [if_pos h, Option.map_some, Option.some.injEq, word32_iff]
      exact ⟨fun k => ⟨n, rfl, h, k⟩, fun ⟨m, e, _, k⟩ => by cases e; exact k⟩
    · simp only [if_neg h, Option.map_none]
      exact ⟨fun k => by simp at k, fun ⟨m, e, k, _⟩ => by cases e; exact absurd k h⟩
  | _ => simp

theorem forall2_map {α β γ : Type} {g : α → β} {P : β → γ → Prop} {Q : α → γ → Prop} {l : List β} {m : List γ}
    (h : List.Forall₂ P l m) (hp : ∀ b c, P b c → ∃ a, b = g a ∧ Q a c) : ∃ k : List α, l = k.map g ∧ List.Forall₂ Q k m := by
  induction h with
  | nil => exact ⟨[], rfl, .nil⟩
  | cons h1 _ ih =>
    obtain ⟨k, e, hk⟩ := ih
    obtain ⟨a, ea, ha⟩ := hp _ _ h1
    exact ⟨a :: k, by rw [e, ea]; rfl, .cons ha hk⟩

theorem jsonRow_iff {v : JVal} {r : List Int} :
    jsonRow v = some r ↔ ∃ l : List Int, v = .arr (l.map .int) ∧
      List.Forall₂ (fun n c => (-2 ^ 63 ≤ n ∧ n < 2 ^ 63) ∧ Word32 n c) l r := by
  unfold jsonRow
  constructor
  · intro h
    cases v with
    | arr l =>
      simp only [JVal.asArray, Option.bind_some] at h
      obtain ⟨k, e, hk⟩ := forall2_map (mapM_forall2.mp h) fun b c hb => (jsonCell_iff.mp hb)
      exact ⟨k, by rw [e], hk⟩
    | _ => simp [JVal.asArray] at h
  · rintro ⟨l, rfl, h⟩
    simp only [JVal.asArray, Option.bind_some]
    refine mapM_forall2.mpr ?_
    rw [List.forall₂_map_left_iff]
    exact h.imp fun n c hn => jsonCell_iff.mpr ⟨n, rfl, hn⟩

theorem json2vec_iff {parse : List Char → Option JVal} {text : List Char} {C : Board} :
    json2vec parse text = some C ↔ ∃ B : List (List Int), parse text = some (matrix B) ∧
      List.Forall₂ (List.Forall₂ fun n c => (-2 ^ 63 ≤ n ∧ n < 2 ^ 63) ∧ Word32 n c) B C := by
  unfold json2vec
  constructor
  · intro h
    cases hv : parse text with
    | none => rw [hv] at h; simp at h
    | some v =>
      rw [hv] at h
      cases v with
      | arr l =>
        simp only [JVal.asArray, Option.bind_some] at h
        obtain ⟨k, e, hk⟩ := forall2_map (mapM_forall2.mp h) fun b c hb => (jsonRow_iff.mp hb)
        exact ⟨k, by rw [e]; rfl, hk⟩
      | _ => simp [JVal.asArray] at h
  · rintro ⟨B, e, h⟩
    rw [e]
    simp only [matrix, JVal.asArray, Option.bind_some]
    refine mapM_forall2.mpr ?_
    rw [List.forall₂_map_left_iff]
    exact h.imp fun l r hl => jsonRow_iff.mpr ⟨l, rfl, hl⟩

theorem Cells32.to64 {b : List (List Int)} (h : Cells32 b) : Cells64 b :=
  fun r hr x hx => by have := h r hr x hx; omega

theorem white_blank : White [' '] := by
  intro c hc
  exact Or.inl (List.mem_singleton.mp hc)

/-! ### reading boards -/

/-- **C86** the assumption on `serde_json` can be met -/
theorem C86_reader : ∃ parse, Reader parse := reader_exists

/-- **C86** a text that spells a matrix of integers of 64 bits, with any white space, is read as the matrix of their lower
32 bits. -/
theorem C86_reads {parse : List Char → Option JVal} (hp : Reader parse) (B : List (List Int)) (hB : Cells64 B)
    (before text after : List Char) (h1 : White before) (h2 : White after) (ht : Spells (matrix B) text) :
    ∃ C, json2vec parse (before ++ (text ++ after)) = some C ∧ List.Forall₂ (List.Forall₂ Word32) B C := by
  refine ⟨B.map fun r => r.map wrapI32, json2vec_iff.mpr ⟨B, hp _ _ _ _ h1 h2 ht, ?_⟩, ?_⟩
  · rw [List.forall₂_map_right_iff]
    refine List.forall₂_same.mpr fun r hr => ?_
    rw [List.forall₂_map_right_iff]
    exact List.forall₂_same.mpr fun x hx => ⟨hB r hr x hx, wrapI32_spec x⟩
  · rw [List.forall₂_map_right_iff]
    refine List.forall₂_same.mpr fun r hr => ?_
    rw [List.forall₂_map_right_iff]
    exact List.forall₂_same.mpr fun x hx => wrapI32_spec x

/-- **C86** a board whose cells fit in 32 bits is read as it is. -/
theorem C86_reads_same {parse : List Char → Option JVal} (hp : Reader parse) (B : List (List Int)) (hB : Cells32 B)
    (before text after : List Char) (h1 : White before) (h2 : White after) (ht : Spells (matrix B) text) :
    json2vec parse (before ++ (text ++ after)) = some B := by
  refine json2vec_iff.mpr ⟨B, hp _ _ _ _ h1 h2 ht, List.forall₂_same.mpr fun r hr => List.forall₂_same.mpr fun x hx => ?_⟩
  exact ⟨Cells32.to64 hB r hr x hx, (hB r hr x hx).1, (hB r hr x hx).2, by simp⟩

/-- **C86** everything else panics: a text that is read is JSON for a list of lists of integers of 64 bits. -/
theorem C86_reads_only {parse : List Char → Option JVal} (text : List Char) (C : Board)
    (h : json2vec parse text = some C) :
    ∃ B, parse text = some (matrix B) ∧ Cells64 B ∧ List.Forall₂ (List.Forall₂ Word32) B C := by
  obtain ⟨B, e, hB⟩ := json2vec_iff.mp h
  refine ⟨B, e, ?_, hB.imp fun r c hr => hr.imp fun n x hn => hn.2⟩
  intro r hr x hx
  clear h e
  induction hB with
  | nil => simp at hr
  | @cons r' c' B' C' h1 _ ih =>
    rcases List.mem_cons.mp hr with rfl | hr
    · clear ih
      induction h1 with
      | nil => simp at hx
      | cons h3 _ ih2 =>
        rcases List.mem_cons.mp hx with rfl | hx
        · exact h3.1
        · exact ih2 hx (by simp)
    · exact ih hr

/-- **C86** a board written by the package is read back. -/
theorem C86_written {parse : List Char → Option JVal} (hp : Reader parse) (b : Board) (hb : Cells32 b) :
    Spells (matrix b) (vec2json b) ∧ json2vec parse (vec2json b) = some b := by
  have h := vec2json_spells (Cells32.to64 hb)
  exact ⟨h, by simpa using C86_reads_same hp b hb [] _ [] white_nil white_nil h⟩

/-- **C86** refuted: that different boards are told apart.  4294967295 is read as -1, a mine. -/
theorem C86_confuses {parse : List Char → Option JVal} (hp : Reader parse) :
    json2vec parse "[[4294967295, 1]]".toList = some [[-1, 1]] ∧ json2vec parse "[[-1, 1]]".toList = some [[-1, 1]] := by
  have h1 : Spells (.int 1) ['1'] := Or.inl ⟨⟨by decide, by decide, by decide⟩, by decide, by decide⟩
  have key : ∀ (n : Int) (t : List Char), Spells (.int n) t → Spells (matrix [[n, 1]]) (("[[".toList ++ t) ++ ", 1]]".toList) := by
    intro n t ht
    refine ⟨'[' :: (t ++ ", 1]".toList), by simp, [], _, [], white_nil, white_nil, ?_, Or.inl ⟨rfl, by simp; rfl⟩⟩
    refine ⟨t ++ ", 1".toList, by simp, [], t, [], white_nil, white_nil, ht, Or.inr ⟨by simp, [' ', '1'], by simp, ?_⟩⟩
    exact ⟨[' '], ['1'], [], white_blank, white_nil, h1, Or.inl ⟨rfl, rfl⟩⟩
  have k1 := key 4294967295 "4294967295".toList (Or.inl ⟨⟨by decide, by decide, by decide⟩, by decide +kernel, by decide +kernel⟩)
  have k2 := key (-1) "-1".toList
    (Or.inr ⟨['1'], by decide, ⟨by decide, by decide, by decide⟩, by decide, by decide, by decide⟩)
  constructor
  · refine json2vec_iff.mpr ⟨[[4294967295, 1]], ?_, ?_⟩
    · simpa using hp _ [] _ [] white_nil white_nil k1
    · refine .cons (.cons ⟨by omega, by unfold Word32; omega⟩ (.cons ⟨by omega, by unfold Word32; omega⟩ .nil)) .nil
  · simpa using C86_reads_same hp _ (by intro r hr x hx; simp at hr; subst hr; simp at hx; omega) [] _ [] white_nil white_nil k2

/-! ### counting -/

theorem measure_le (v : View) : (isolated v).card + components (zeros v) ≤ v.row * v.col := by
  have h1 : components (zeros v) ≤ (zeros v).card := by
    unfold components
    have := Nat.card_le_card_of_surjective (fun x : zeros v => (Quotient.mk (linkedSetoid (zeros v)) x)) Quotient.mk_surjective
    simpa using this
  have h2 : Disjoint (isolated v) (zeros v) := by
    rw [Finset.disjoint_left]
    intro p hp hq
    unfold isolated at hp
    unfold zeros at hq
    rw [Finset.mem_filter] at hp hq
    omega
  have h3 : (isolated v ∪ zeros v).card ≤ (vcells v).card :=
    Finset.card_le_card (Finset.union_subset (Finset.filter_subset _ _) (Finset.filter_subset _ _))
  rw [Finset.card_union_of_disjoint h2] at h3
  have h4 : (vcells v).card = v.row * v.col := by
    unfold vcells
    simp [grid]
  omega

/-- **C86** `cal_bbbv` and `cal_op` of the wasm package on a text that spells a board with fewer than 2^31 cells: the 3BV
and the number of openings. -/
theorem C86_measures {parse : List Char → Option JVal} (hp : Reader parse) (b : Board) (hb : Cells32 b) (hne : b ≠ [])
    (hn : b.row * b.col < 2 ^ 31) (before text after : List Char) (h1 : White before) (h2 : White after)
    (ht : Spells (matrix b) text) :
    wasmCalBbbv parse (before ++ (text ++ after)) =
      some (((isolated b.view).card + components (zeros b.view) : Nat) : Int) ∧
    wasmCalOp parse (before ++ (text ++ after)) = some ((components (zeros b.view) : Nat) : Int) := by
  have h := C86_reads_same hp b hb before text after h1 h2 ht
  have hr : b.row ≠ 0 := by unfold Board.row; rw [Ne, List.length_eq_zero_iff]; exact hne
  have hm := measure_le b.view
  have hv : b.view.row * b.view.col = b.row * b.col := rfl
  unfold wasmCalBbbv wasmCalOp
  rw [h]
  simp only [Option.bind_some, if_neg hr]
  have ho : calOp b.view = components (zeros b.view) := by unfold calOp; rw [C04_cal_op, Option.getD_some]
  rw [C07_cal_bbbv, ho]
  exact ⟨congrArg some (word32_self (by omega) (by omega)), congrArg some (word32_self (by omega) (by omega))⟩

/-! ### games -/

/-- **C86** a game on a board given as a text is the game on that board. -/
theorem C86_new {parse : List Char → Option JVal} (hp : Reader parse) (b : Board) (hb : Cells32 b) (hne : b ≠ [])
    (before text after : List Char) (h1 : White before) (h2 : White after) (ht : Spells (matrix b) text) :
    MSB.newText parse (before ++ (text ++ after)) = some (MSB.new b.view) := by
  have hr : b.row ≠ 0 := by unfold Board.row; rw [Ne, List.length_eq_zero_iff]; exact hne
  unfold MSB.newText
  rw [C86_reads_same hp b hb before text after h1 h2 ht]
  simp only [Option.bind_some, if_neg hr]

/-- **C86** the probabilities and the two setters work on the board that is spelled. -/
theorem C86_uses {parse : List Char → Option JVal} (hp : Reader parse) (b : Board) (hb : Cells32 b) (s : MSB) (minenum : Int)
    (before text after : List Char) (h1 : White before) (h2 : White after) (ht : Spells (matrix b) text) :
    wasmCalPossibilityText parse (before ++ (text ++ after)) minenum = wasmCalPossibilityOnboard b minenum ∧
    s.setBoardText parse (before ++ (text ++ after)) = some { s with board := b.view } ∧
    s.setGameBoardText parse (before ++ (text ++ after)) = some { s with gameBoard := b } := by
  unfold wasmCalPossibilityText MSB.setBoardText MSB.setGameBoardText
  rw [C86_reads_same hp b hb before text after h1 h2 ht]
  exact ⟨rfl, rfl, rfl⟩

theorem asU64_nat {n : Nat} (hn : n < 2 ^ 64) : (JVal.int n).asU64 = some n := by
  rw [JVal.asU64]
  rw [if_pos (by constructor <;> omega), Int.toNat_natCast]

theorem jsonOp_of {usz : Nat} {e : List Char} {vx vy : JVal} {x y : Nat} (hx : vx.asU64 = some x) (hy : vy.asU64 = some y)
    (more : List JVal) : jsonOp usz (.arr (.str e :: vx :: vy :: more)) = some (e, (x % usz, y % usz)) := by
  unfold jsonOp JVal.get
  simp only [JVal.asArray, JVal.asStr, Option.bind_eq_bind, Option.bind_some, List.getElem?_cons_zero, List.getElem?_cons_succ,
    hx, hy, Option.pure_def]

theorem jsonOp_ok {usz : Nat} (e : List Char) (x y : Nat) (hx : x < 2 ^ 64) (hy : y < 2 ^ 64) (more : List JVal) :
    jsonOp usz (.arr (.str e :: .int x :: .int y :: more)) = some (e, (x % usz, y % usz)) :=
  jsonOp_of (asU64_nat hx) (asU64_nat hy) more

/-- **C86** operations given as a text are the operations that are played, on cells with numbers below 2^32. -/
theorem C86_step_flow {parse : List Char → Option JVal} (hp : Reader parse) (s : MSB) (ops : List (List Char × Nat × Nat))
    (hops : ∀ o ∈ ops, o.2.1 < 2 ^ 32 ∧ o.2.2 < 2 ^ 32) (before text after : List Char) (h1 : White before)
    (h2 : White after) (ht : Spells (operations ops) text) :
    MSB.stepFlowText parse (2 ^ 32) s (before ++ (text ++ after)) =
      s.pyStepFlow (ops.map fun o => (evOf (String.ofList o.1), o.2)) := by
  have h : transOpt parse (2 ^ 32) (before ++ (text ++ after)) = some ops := by
    unfold transOpt
    rw [hp _ _ _ _ h1 h2 ht]
    simp only [operations, JVal.asArray, Option.bind_some]
    refine mapM_forall2.mpr ?_
    rw [List.forall₂_map_left_iff]
    refine List.forall₂_same.mpr fun o ho => ?_
    obtain ⟨a, b⟩ := hops o ho
    rw [jsonOp_ok _ _ _ (by omega) (by omega), Nat.mod_eq_of_lt a, Nat.mod_eq_of_lt b]
  unfold MSB.stepFlowText
  rw [h]
  rfl

/-- **C86** refuted: that an operation on a cell that does not exist is never played on another cell.  `usize` has 32 bits;
row 4294967296 is row 0. -/
theorem C86_step_flow_refuted {parse : List Char → Option JVal} (hp : Reader parse) (s : MSB) (text : List Char)
    (ht : Spells (operations [(['l', 'c'], 4294967296, 0)]) text) :
    MSB.stepFlowText parse (2 ^ 32) s text = s.pyStepFlow [(.lc, (0, 0))] := by
  have h : transOpt parse (2 ^ 32) text = some [(['l', 'c'], (0, 0))] := by
    unfold transOpt
    have := hp _ [] _ [] white_nil white_nil ht
    simp only [List.append_nil, List.nil_append] at this
    rw [this]
    simp only [operations, JVal.asArray, Option.bind_some]
    refine mapM_forall2.mpr ?_
    refine .cons ?_ .nil
    exact jsonOp_ok ['l', 'c'] 4294967296 0 (by omega) (by omega) []
  unfold MSB.stepFlowText
  rw [h]
  rfl

/-- **C86** elements of an operation after the third are not looked at; with fewer than three, or with a name that is no
string or a coordinate that is no natural number, the call panics. -/
theorem C86_operation_shape {usz : Nat} (v : JVal) (o : List Char × Pos) (h : jsonOp usz v = some o) :
    ∃ (e : List Char) (x y : Nat) (more : List JVal), v = .arr (.str e :: .int x :: .int y :: more) ∧ x < 2 ^ 64 ∧ y < 2 ^ 64 ∧
      o = (e, (x % usz, y % usz)) := by
  unfold jsonOp JVal.get at h
  simp only [Option.bind_eq_bind, Option.bind_eq_some_iff, Option.pure_def, Option.some.injEq] at h
  obtain ⟨v0, ⟨l, hl, h0⟩, e, he, v1, ⟨l1, hl1, h1⟩, x, hx, v2, ⟨l2, hl2, h2⟩, y, hy, rfl⟩ := h
  rw [hl, Option.some.injEq] at hl1 hl2
  subst hl1 hl2
  have u64 : ∀ {w : JVal} {n : Nat}, w.asU64 = some n → w = .int n ∧ n < 2 ^ 64 := by
    intro w n hw
    cases w with
    | int m =>
      simp only [JVal.asU64] at hw
      split at hw
      · simp only [Option.some.injEq] at hw
        subst hw
        exact ⟨by rw [Int.toNat_of_nonneg (by omega)], by omega⟩
      · simp at hw
    | _ => simp [JVal.asU64] at hw
  cases v with
  | arr a =>
    simp only [JVal.asArray, Option.some.injEq] at hl
    subst hl
    match a, h0, h1, h2 with
    | w0 :: w1 :: w2 :: more, h0, h1, h2 =>
      simp only [List.getElem?_cons_zero, List.getElem?_cons_succ, Option.some.injEq] at h0 h1 h2
      subst h0 h1 h2
      cases w0 with
      | str s =>
        simp only [JVal.asStr, Option.some.injEq] at he
        subst he
        exact ⟨s, x, y, more, by rw [(u64 hx).1, (u64 hy).1], (u64 hx).2, (u64 hy).2, rfl⟩
      | _ => simp [JVal.asStr] at he
    | [], h0, h1, h2 => simp at h0
    | [_], h0, h1, h2 => simp at h1
    | [_, _], h0, h1, h2 => simp at h2
  | _ => simp [JVal.asArray] at hl

theorem reach_cells32 {s : MSB} (h : Reach s) : Cells32 s.gameBoard := by
  obtain ⟨hr, hc⟩ := C12_game_board_never_lies s h
  have hrange := fun (p : Pos) (hp : p ∈ vcells s.board) => hc p hp
  intro r hr' x hx
  obtain ⟨i, hi, rfl⟩ := List.mem_iff_getElem.mp hr'
  obtain ⟨j, hj, rfl⟩ := List.mem_iff_getElem.mp hx
  have hi' : i < s.board.row := by rw [← hr.len]; exact hi
  have hj' : j < s.board.col := by rw [← hr.rows _ (List.getElem_mem hi)]; exact hj
  have hp : (i, j) ∈ vcells s.board := by unfold vcells; exact mem_grid.mpr ⟨hi', hj'⟩
  have hv : Spec.shown s.gameBoard (i, j) = s.gameBoard[i][j] := by
    simp only [Spec.shown, Board.get, List.getD_eq_getElem?_getD, List.getElem?_eq_getElem hi, Option.getD_some,
      List.getElem?_eq_getElem hj]
  obtain ⟨a, b⟩ := hrange _ hp
  rw [hv] at a b
  have hb := numbered_range h.inv.core.num hp
  by_cases h10 : s.gameBoard[i][j] < 10
  · have := a h10
    omega
  · have := b (by omega)
    omega

/-- **C86** what is read from `game_board` is the game board, and setting it to what was read changes nothing. -/
theorem C86_game_board {parse : List Char → Option JVal} (hp : Reader parse) (s : MSB) (h : Reach s) :
    json2vec parse s.gameBoardText = some s.gameBoard ∧ s.setGameBoardText parse s.gameBoardText = some s := by
  have := (C86_written hp s.gameBoard (reach_cells32 h)).2
  refine ⟨this, ?_⟩
  unfold MSB.setGameBoardText MSB.gameBoardText
  rw [this]
  rfl

/-- **C86** the numbers given for the state of a game and of the mouse tell the states apart; they are 1 to 6 and 1 to 8. -/
theorem C86_codes (s t : MSB) : (s.stateCode = t.stateCode ↔ s.state = t.state) ∧ (s.mouseCode = t.mouseCode ↔ s.mouse = t.mouse) ∧
    (1 ≤ s.stateCode ∧ s.stateCode ≤ 6) ∧ (1 ≤ s.mouseCode ∧ s.mouseCode ≤ 8) := by
  unfold MSB.stateCode MSB.mouseCode
  refine ⟨?_, ?_, ?_, ?_⟩
  · cases s.state <;> cases t.state <;> simp
  · cases s.mouse <;> cases t.mouse <;> simp
  · cases s.state <;> simp
  · cases s.mouse <;> simp

/-! ### laying boards -/

theorem wordArg_of_nat {usz n : Nat} (h : n < usz) : wordArg usz n = n := by
  unfold wordArg
  rw [Int.emod_eq_of_lt (by omega) (by omega)]
  rfl

theorem numbered_cells32 {b : Board} {r c : Nat} (hr : Rect b r c) (hr0 : 0 < r) (h : Numbered b.view) : Cells32 b := by
  intro l hl x hx
  obtain ⟨i, hi, rfl⟩ := List.mem_iff_getElem.mp hl
  obtain ⟨j, hj, rfl⟩ := List.mem_iff_getElem.mp hx
  have hlen := hr.len
  have hcol : b.col = c := by
    unfold Board.col
    cases b with
    | nil => simp at hlen; omega
    | cons l b => exact hr.rows l (by simp)
  have hj' : j < b.col := by rw [hcol, ← hr.rows _ (List.getElem_mem hi)]; exact hj
  have hp : (i, j) ∈ vcells b.view := by unfold vcells; exact mem_grid.mpr ⟨hi, hj'⟩
  have := numbered_range h hp
  have hv : val b.view (i, j) = b[i][j] := by
    simp only [val, Board.view, Board.get, List.getD_eq_getElem?_getD, List.getElem?_eq_getElem hi, Option.getD_some,
      List.getElem?_eq_getElem hj]
  rw [hv] at this
  omega

/-- **C86** `laymine_number` of the wasm package: the text spells a board of the wanted size with the wanted number of mines,
none of them on the start, and the right numbers. -/
theorem C86_laymine (shuffle : List Int → List Int) (hsh : ∀ l, (shuffle l).Perm l) (row col minenum x0 y0 : Nat)
    (hx : x0 < row) (hy : y0 < col) (hm : minenum ≤ row * col - 1) (hw : row < 2 ^ 31 ∧ col < 2 ^ 31 ∧ minenum < 2 ^ 31) :
    ∃ (b : Board) (text : List Char), wasmLaymineNumber (2 ^ 32) shuffle row col minenum x0 y0 = some text ∧ Spells (matrix b) text ∧ Rect b row col ∧
      (mines b.view).card = minenum ∧ (x0, y0) ∉ mines b.view ∧ Numbered b.view := by
  obtain ⟨b, h1, h2, h3, h4, h5⟩ := C01_laymine shuffle hsh row col minenum x0 y0 hx hy hm
  refine ⟨b, vec2json b, ?_, vec2json_spells (Cells32.to64 (numbered_cells32 h2 (by omega) h5)), h2, h3, h4, h5⟩
  unfold wasmLaymineNumber
  rw [wordArg_of_nat (by omega), wordArg_of_nat (by omega), wordArg_of_nat (by omega), wordArg_of_nat (by omega),
    wordArg_of_nat (by omega), h1]
  rfl

/-- **C86** `laymine_op_number` of the wasm package, with the start in an opening. -/
theorem C86_laymine_op (shuffle : List Int → List Int) (hsh : ∀ l, (shuffle l).Perm l) (row col minenum x0 y0 : Nat)
    (hr : 2 ≤ row) (hc : 2 ≤ col) (hx : x0 < row) (hy : y0 < col) (hm : minenum ≤ row * col - (startBlock row col x0 y0).card)
    (hw : row < 2 ^ 31 ∧ col < 2 ^ 31 ∧ minenum < 2 ^ 31) :
    ∃ (b : Board) (text : List Char), wasmLaymineOpNumber (2 ^ 32) shuffle row col minenum x0 y0 = some text ∧ Spells (matrix b) text ∧ Rect b row col ∧
      (mines b.view).card = minenum ∧ Numbered b.view ∧ val b.view (x0, y0) = 0 := by
  obtain ⟨b, h1, h2, h3, h4, h5, h6⟩ := C02_laymine_op_partial shuffle hsh row col minenum x0 y0 hr hc hx hy hm
  refine ⟨b, vec2json b, ?_, vec2json_spells (Cells32.to64 (numbered_cells32 h2 (by omega) h5)), h2, h3, h5, h6⟩
  unfold wasmLaymineOpNumber
  rw [wordArg_of_nat (by omega), wordArg_of_nat (by omega), wordArg_of_nat (by omega), wordArg_of_nat (by omega),
    wordArg_of_nat (by omega), h1]
  rfl

/-- **C86** `laymine_solvable` of the wasm package: the text spells the board and whether it was accepted. -/
theorem C86_laymine_solvable (sh : Nat → List Int → List Int) (hsh : ∀ k l, (sh k l).Perm l) (row col minenum x0 y0 maxTimes : Nat)
    (hr : 3 ≤ row) (hc : 3 ≤ col) (hx : x0 < row) (hy : y0 < col) (hm : minenum ≤ row * col - (startBlock row col x0 y0).card)
    (hw : row < 2 ^ 31 ∧ col < 2 ^ 31 ∧ minenum < 2 ^ 31 ∧ maxTimes < 2 ^ 31) :
    ∃ (b : Board) (f : Bool) (text : List Char), wasmLaymineSolvable (2 ^ 32) sh row col minenum x0 y0 maxTimes = some text ∧
      Spells (.arr [matrix b, .bool f]) text ∧ Rect b row col ∧ (mines b.view).card = minenum ∧ Numbered b.view ∧
      b.get x0 y0 = 0 ∧ (f = true → isSolvable b x0 y0 = some true) := by
  obtain ⟨b, f, h1, h2, h3, _⟩ := laymine_solvable_spec sh hsh row col minenum x0 y0 maxTimes hr hc hx hy hm
  have hsp := vec2json_spells (Cells32.to64 (numbered_cells32 h2.rect (by omega) h2.numbered))
  refine ⟨b, f, listText [vec2json b, if f then ['t', 'r', 'u', 'e'] else ['f', 'a', 'l', 's', 'e']], ?_, ?_, h2.rect,
    h2.mines, h2.numbered, h2.start, fun hf => (h3 hf).1⟩
  · unfold wasmLaymineSolvable
    rw [wordArg_of_nat (by omega), wordArg_of_nat (by omega), wordArg_of_nat (by omega), wordArg_of_nat (by omega),
      wordArg_of_nat (by omega), wordArg_of_nat (by omega), h1]
    rfl
  · exact listText_spells (.cons hsp (.cons (by unfold Spells; rfl) .nil))

/-- **C86** a negative number of mines, or a negative coordinate of the start, panics. -/
theorem C86_laymine_negative (shuffle : List Int → List Int) (row col : Nat) (minenum x0 y0 : Int)
    (hw : row < 2 ^ 31 ∧ col < 2 ^ 31 ∧ row * col ≤ 2 ^ 31)
    (hneg : (-2 ^ 31 ≤ minenum ∧ minenum < 0) ∨ (-2 ^ 31 ≤ x0 ∧ x0 < 0) ∨ (-2 ^ 31 ≤ y0 ∧ y0 < 0)) :
    wasmLaymineNumber (2 ^ 32) shuffle row col minenum x0 y0 = none := by
  have wrap : ∀ n : Int, -2 ^ 31 ≤ n → n < 0 → 2 ^ 31 ≤ wordArg (2 ^ 32) n := by
    intro n h1 h2
    unfold wordArg
    have : ((2 ^ 32 : Nat) : Int) = 4294967296 := by norm_num
    rw [this]
    omega
  unfold wasmLaymineNumber
  rw [wordArg_of_nat (n := row) (by omega), wordArg_of_nat (n := col) (by omega)]
  rw [Option.map_eq_none_iff]
  unfold laymine
  simp only
  split
  · rfl
  rename_i hpos
  split
  · rfl
  rename_i hmine
  have hr : 0 < row := by
    rcases Nat.eq_zero_or_pos row with h | h
    · subst h; simp at hpos
    · exact h
  rw [if_pos]
  rcases hneg with h | h | h
  · have := wrap _ h.1 h.2
    omega
  · have := wrap _ h.1 h.2
    have := Nat.zero_le (wordArg (2 ^ 32) y0 * row)
    omega
  · have := wrap _ h.1 h.2
    have := Nat.le_mul_of_pos_right (wordArg (2 ^ 32) y0) hr
    omega

/-! ### examples -/

example : vec2json [[0, 1, -1], [10, 11, 12]] = "[[0,1,-1],[10,11,12]]".toList := by decide +kernel

/-- a text for operations, with spaces -/
theorem sampleOps_spells : Spells (operations [(['l', 'c'], 4294967296, 0)]) "[[\"lc\", 4294967296,0 ]]".toList := by
  refine ⟨"[\"lc\", 4294967296,0 ]".toList, by simp, [], _, [], white_nil, white_nil, ?_, Or.inl ⟨rfl, by simp; rfl⟩⟩
  refine ⟨"\"lc\", 4294967296,0 ".toList, by simp, [], "\"lc\"".toList, [], white_nil, white_nil, ?_, Or.inr ⟨by simp, _, by simp; rfl, ?_⟩⟩
  · exact ⟨by decide, by decide⟩
  refine ⟨[' '], "4294967296".toList, [], white_blank, white_nil, ?_, Or.inr ⟨by simp, ['0', ' '], by simp, ?_⟩⟩
  · exact Or.inl ⟨⟨by decide, by decide, by decide⟩, by decide +kernel, by decide +kernel⟩
  exact ⟨[], ['0'], [' '], white_nil, white_blank, Or.inl ⟨⟨by decide, by decide, by decide⟩, by decide, by decide⟩,
    Or.inl ⟨rfl, rfl⟩⟩

end Ms.Properties
