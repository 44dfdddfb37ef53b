import Verif.Lemmas.GameBoard

/-! # C53: `GameBoard`, a position with cached analyses -/

namespace Ms.Properties
open Ms Ms.Spec

/-- What can be asked of a `GameBoard`. -/
inductive Ask | poss | basicNot | basicIs | enumNot | enumIs

/-- The object after a question. -/
def GameBoard.ask (G : GameBoard) : Ask → Option GameBoard
  | .poss => G.getPoss.map (·.1)
  | .basicNot => G.getBasicNot.map (·.1)
  | .basicIs => G.getBasicIs.map (·.1)
  | .enumNot => G.getEnumNot.map (·.1)
  | .enumIs => G.getEnumIs.map (·.1)

/-- A `GameBoard` made for `mines` mines and the board `g`, after any questions in any order. -/
inductive Asked (mines : Nat) (g : Board) : GameBoard → Prop
  | set : Asked mines g ((GameBoard.new mines).setBoard g)
  | ask {G G' : GameBoard} {a : Ask} : Asked mines g G → GameBoard.ask G a = some G' → Asked mines g G'

/-- The cells of the board hold what game boards hold. -/
def Shown (g : Board) : Prop := ∀ p ∈ grid g.row g.col, 0 ≤ g.get p.1 p.2

section
variable {g : Board} {r c mines : Nat}

theorem unmark_le (hrect : Rect g r c) (p : Pos) (h1 : p.1 < r) (h2 : p.2 < c) : (unmark g).get p.1 p.2 ≤ 10 := by
  rw [(unmark_spec g r c hrect).2 p h1 h2]; split <;> omega

/-- The state of a `GameBoard` after any questions: untouched, or marked, or marked with probabilities. -/
theorem asked_cases (hrect : Rect g r c) (hr : 0 < r) (hcons : ∃ σ, Consistent (unmark g) σ) :
    ∃ h bn bi en, Marking r c (unmark g) h bn bi en ∧ ∀ G, Asked mines g G →
      G = (GameBoard.new mines).setBoard g ∨
      (G = ⟨g, h, [], mines, true, false, bn, bi, en, []⟩) ∨
      ∃ P rng, calPossibilityOnboard h (mines : ℚ) = some (.ok (P, rng)) ∧ G = ⟨g, h, P, mines, true, true, bn, bi, en, []⟩ := by
  obtain ⟨h, bn, bi, en, hm, hM, hX⟩ := mark_spec (G := (GameBoard.new mines).setBoard g) (r := r) (c := c)
    (unmark_spec g r c hrect).1 hr (fun p h1 h2 => unmark_le hrect p h1 h2) rfl rfl rfl rfl hcons
  refine ⟨h, bn, bi, en, hM, fun G hG => ?_⟩
  have hmarks : ∀ G : GameBoard, G = (GameBoard.new mines).setBoard g ∨ (G = ⟨g, h, [], mines, true, false, bn, bi, en, []⟩) ∨
      (∃ P rng, calPossibilityOnboard h (mines : ℚ) = some (.ok (P, rng)) ∧ G = ⟨g, h, P, mines, true, true, bn, bi, en, []⟩) →
      G.mark = some ⟨g, h, [], mines, true, false, bn, bi, en, []⟩ ∧ G.hasPoss = false ∨
      ∃ P rng, calPossibilityOnboard h (mines : ℚ) = some (.ok (P, rng)) ∧ G = ⟨g, h, P, mines, true, true, bn, bi, en, []⟩ ∧
        G.mark = some G ∧ G.hasPoss = true := by
    rintro G (rfl | rfl | ⟨P, rng, hP, rfl⟩)
    · exact .inl ⟨hm, rfl⟩
    · exact .inl ⟨by simp [GameBoard.mark], rfl⟩
    · exact .inr ⟨P, rng, hP, rfl, by simp [GameBoard.mark], rfl⟩
  induction hG with
  | set => exact .inl rfl
  | @ask G G' a _ ha ih =>
    rcases hmarks G ih with ⟨k1, k2⟩ | ⟨P, rng, k1, k2, k3, k4⟩
    · cases a with
      | poss =>
        simp only [GameBoard.ask, GameBoard.getPoss, k1, k2, Bool.false_eq_true, if_false, Option.bind_eq_bind,
          Option.bind_some] at ha
        cases hP : calPossibilityOnboard h (mines : ℚ) with
        | none => rw [hP] at ha; simp at ha
        | some x =>
          cases x with
          | error e => rw [hP] at ha; simp at ha
          | ok x =>
            rw [hP] at ha
            obtain ⟨P, rng⟩ := x
            simp only [Option.bind_some, Option.pure_def, Option.map_some, Option.some.injEq] at ha
            exact .inr (.inr ⟨P, rng, rfl, ha.symm⟩)
      | _ =>
        simp only [GameBoard.ask, GameBoard.getBasicNot, GameBoard.getBasicIs, GameBoard.getEnumNot, GameBoard.getEnumIs,
          k1, Option.map_some, Option.some.injEq] at ha
        exact .inr (.inl ha.symm)
    · cases a with
      | poss =>
        simp only [GameBoard.ask, GameBoard.getPoss, k4, if_true, Option.map_some, Option.some.injEq] at ha
        exact .inr (.inr ⟨P, rng, k1, ha.symm.trans k2⟩)
      | _ =>
        simp only [GameBoard.ask, GameBoard.getBasicNot, GameBoard.getBasicIs, GameBoard.getEnumNot, GameBoard.getEnumIs,
          k3, Option.map_some, Option.some.injEq] at ha
        exact .inr (.inr ⟨P, rng, k1, ha.symm.trans k2⟩)

theorem asked_mark_exact (hrect : Rect g r c) (hr : 0 < r) (hcons : ∃ σ, Consistent (unmark g) σ) :
    ∃ h bn bi en, Marking r c (unmark g) h bn bi en ∧ (∀ σ, Consistent (unmark g) σ → ∀ p,
        (p ∈ bn ↔ p ∈ quick σ (numbersOf (unmark g)) ∧ σ p = false) ∧ (p ∈ bi ↔ p ∈ quick σ (numbersOf (unmark g)) ∧ σ p = true) ∧
        (p ∈ en ↔ EngineSafe (unmark g) (quick σ (numbersOf (unmark g))) p)) ∧ ∀ G, Asked mines g G → G.board = g ∧
      (G.hasPoss = true → ∃ P rng, calPossibilityOnboard h (mines : ℚ) = some (.ok (P, rng)) ∧ G.poss = P) ∧
      ∃ G', G.mark = some G' ∧ G'.basicNot = bn ∧ G'.basicIs = bi ∧ G'.enumNot = en ∧ G'.enumIs = [] ∧
        G'.marked = h ∧ G'.mineNum = mines := by
  obtain ⟨h, bn, bi, en, hm, hM, hX⟩ := mark_spec (G := (GameBoard.new mines).setBoard g) (r := r) (c := c)
    (unmark_spec g r c hrect).1 hr (fun p h1 h2 => unmark_le hrect p h1 h2) rfl rfl rfl rfl hcons
  obtain ⟨h', bn', bi', en', hM', hG'⟩ := asked_cases (mines := mines) hrect hr hcons
  -- the two markings agree, both being what the first question finds
  have hsame : GameBoard.ask ((GameBoard.new mines).setBoard g) .basicNot =
      some ⟨g, h, [], mines, true, false, bn, bi, en, []⟩ := by
    simp only [GameBoard.ask, GameBoard.getBasicNot, hm, Option.map_some]; rfl
  have : h' = h ∧ bn' = bn ∧ bi' = bi ∧ en' = en := by
    rcases hG' _ (Asked.ask .set hsame) with h1 | h1 | ⟨P, rng, -, h1⟩
    · have := congrArg GameBoard.isMarked h1
      simp [GameBoard.new, GameBoard.setBoard] at this
    · simp only [GameBoard.mk.injEq] at h1
      tauto
    · simp only [GameBoard.mk.injEq] at h1
      exact absurd h1.2.2.2.2.2.1 (by simp)
  obtain ⟨rfl, rfl, rfl, rfl⟩ := this
  refine ⟨h', bn', bi', en', hM', hX, fun G hG => ?_⟩
  rcases hG' G hG with rfl | rfl | ⟨P, rng, hP, rfl⟩
  · exact ⟨rfl, fun hh => by simp [GameBoard.new, GameBoard.setBoard] at hh, _, hm, rfl, rfl, rfl, rfl, rfl, rfl⟩
  · exact ⟨rfl, fun hh => by simp at hh, _, by simp [GameBoard.mark]; rfl, rfl, rfl, rfl, rfl, rfl, rfl⟩
  · exact ⟨rfl, fun _ => ⟨P, rng, hP, rfl⟩, _, by simp [GameBoard.mark]; rfl, rfl, rfl, rfl, rfl, rfl, rfl⟩

theorem asked_mark (hrect : Rect g r c) (hr : 0 < r) (hcons : ∃ σ, Consistent (unmark g) σ) :
    ∃ h bn bi en, Marking r c (unmark g) h bn bi en ∧ ∀ G, Asked mines g G → G.board = g ∧
      (G.hasPoss = true → ∃ P rng, calPossibilityOnboard h (mines : ℚ) = some (.ok (P, rng)) ∧ G.poss = P) ∧
      ∃ G', G.mark = some G' ∧ G'.basicNot = bn ∧ G'.basicIs = bi ∧ G'.enumNot = en ∧ G'.enumIs = [] ∧
        G'.marked = h ∧ G'.mineNum = mines := by
  obtain ⟨h, bn, bi, en, hM, -, hG⟩ := asked_mark_exact (mines := mines) hrect hr hcons
  exact ⟨h, bn, bi, en, hM, hG⟩

end

/-- **C53** A `GameBoard` whose board some layout explains (marks apart) answers every question about certain cells
without panicking, with the same lists whatever was asked before: the cells of `get_basic_not_mine` and of
`get_enum_not_mine` are covered cells next to a number that are safe in every layout, those of `get_basic_is_mine` such
cells that are mines in every layout; no cell is listed twice by the two basic lists; the lists do not overlap;
`get_enum_is_mine` is always empty; and while at most 55 covered cells lie next to numbers, every such cell that is safe
in every layout is in one of the two lists of safe cells. -/
theorem C53_certain (g : Board) (r c mines : Nat) (hrect : Rect g r c) (hr : 0 < r)
    (hcons : ∃ σ, Consistent (unmark g) σ) :
    ∃ bn bi en : List Pos,
      (bn ++ bi).Nodup ∧
      (∀ p ∈ bn, Frontier (unmark g) p ∧ Certain (unmark g) p false) ∧
      (∀ p ∈ bi, Frontier (unmark g) p ∧ Certain (unmark g) p true) ∧
      (∀ p ∈ en, p ∉ bn ∧ p ∉ bi ∧ Frontier (unmark g) p ∧ Certain (unmark g) p false) ∧
      (FewFrontier (unmark g) → ∀ p, Frontier (unmark g) p → Certain (unmark g) p false → p ∈ bn ∨ p ∈ en) ∧
      ∀ G, Asked mines g G → G.board = g ∧
        G.getBasicNot.map (·.2) = some bn ∧ G.getBasicIs.map (·.2) = some bi ∧
        G.getEnumNot.map (·.2) = some en ∧ G.getEnumIs.map (·.2) = some [] := by
  obtain ⟨h, bn, bi, en, hM, hG⟩ := asked_mark (mines := mines) hrect hr hcons
  refine ⟨bn, bi, en, hM.nodup, hM.basicNot, hM.basicIs, fun p hp => ?_, hM.safe, fun G hg => ?_⟩
  · obtain ⟨a, b, d, e⟩ := hM.enumNot p hp
    exact ⟨b, d, a, e⟩
  · obtain ⟨h1, -, G', h2, rfl, rfl, rfl, h6, -⟩ := hG G hg
    simp [h1, GameBoard.getBasicNot, GameBoard.getBasicIs, GameBoard.getEnumNot, GameBoard.getEnumIs, h2, h6]

/-- **C53** exactly which certain cells are listed, on boards of any size: the basic lists hold what three looks at the numbers find
(`SpecRounds`), `get_enum_not_mine` the further cells that are safe in every layout, unless some group of tied unknown cells has more than
55 cells. -/
theorem C53_certain_iff (g : Board) (r c mines : Nat) (hrect : Rect g r c) (hr : 0 < r) (σ : Pos → Bool)
    (hσ : Consistent (unmark g) σ) (G : GameBoard) (hG : Asked mines g G) :
    ∃ bn bi en, G.getBasicNot.map (·.2) = some bn ∧ G.getBasicIs.map (·.2) = some bi ∧ G.getEnumNot.map (·.2) = some en ∧
      ∀ p, (p ∈ bn ↔ p ∈ quick σ (numbersOf (unmark g)) ∧ σ p = false) ∧ (p ∈ bi ↔ p ∈ quick σ (numbersOf (unmark g)) ∧ σ p = true) ∧
        (p ∈ en ↔ EngineSafe (unmark g) (quick σ (numbersOf (unmark g))) p) := by
  obtain ⟨h, bn, bi, en, hM, hX, hA⟩ := asked_mark_exact (mines := mines) hrect hr ⟨σ, hσ⟩
  obtain ⟨-, -, G', h2, rfl, rfl, rfl, -⟩ := hA G hG
  exact ⟨_, _, _, by simp [GameBoard.getBasicNot, h2], by simp [GameBoard.getBasicIs, h2], by simp [GameBoard.getEnumNot, h2], hX σ hσ⟩

open Classical in
/-- **C53** `get_poss` is exact: on a board some layout of `mines` mines explains, with every number within the reach of
the enumeration, whatever was asked before, it returns a matrix of the size of the board holding for every cell that
shows no number (covered or marked by the player) exactly the fraction of the layouts of `mines` mines with a mine there,
and 0 for the cells that show a number.  The player's marks have no influence. -/
theorem C53_poss (g : Board) (r c mines : Nat) (hrect : Rect g r c) (hr : 0 < r) (hv : Shown g)
    (hm : 1 ≤ mines) (hre : ∀ p, IsNumber (unmark g) p → InReach (unmark g) p)
    (hl : (layouts (unmark g) mines).Nonempty) (hcons : ∃ σ, Consistent (unmark g) σ) :
    ∃ P : List (List (Option ℚ)), P.length = r ∧ (∀ l ∈ P, l.length = c) ∧
      (∀ i j, i < r → j < c → (P.getD i []).getD j none =
        if g.get i j < 10 then some 0
        else some ((((layouts (unmark g) mines).filter fun A => (i, j) ∈ A).card : ℚ) /
          ((layouts (unmark g) mines).card : ℚ))) ∧
      ∀ G, Asked mines g G → G.getPoss.map (·.2) = some P := by
  obtain ⟨h, bn, bi, en, hM, hG⟩ := asked_mark (mines := mines) hrect hr hcons
  obtain ⟨hu, hug⟩ := unmark_spec g r c hrect
  have hle := fun p h1 h2 => unmark_le hrect p h1 h2
  obtain ⟨d1, d2, d3, d4⟩ := hM.dims hu hr
  have hdg := rect_dims hrect hr
  have hnd := List.nodup_append.mp hM.nodup
  have hcard : (markedSet h).card = bi.length := by
    rw [hM.markedSet hu hr hle]; exact List.toFinset_card_of_nodup hnd.2.1
  -- as many mines as marked cells
  have hmle : bi.length ≤ mines := by
    obtain ⟨A, hA⟩ := hl
    rw [layouts_mem hre hcons] at hA
    have hsub : bi.toFinset ⊆ A := by
      intro q hq
      have := (hM.basicIs q (List.mem_toFinset.mp hq)).2 _ hA.2.2
      simpa using this
    have := Finset.card_le_card hsub
    rw [List.toFinset_card_of_nodup hnd.2.1, hA.2.1] at this
    exact this
  obtain ⟨m, hmm⟩ : ∃ m, mines = m + bi.length := ⟨mines - bi.length, by omega⟩
  have hcf := hM.card_filter hu hr hre hcons m
  have hall : (layouts (unmark g) mines).card = (layouts h m).card := by
    have := hcf (fun _ => True) (fun _ => True) fun _ _ => Iff.rfl
    rw [hmm]
    convert this using 2 <;> (ext A; simp)
  have hne : h ≠ [] := by
    intro hh
    have := hM.rect.len
    rw [hh] at this
    simp at this
    omega
  have hvh : ∀ p ∈ grid h.row h.col, 0 ≤ h.get p.1 p.2 := by
    intro p hp
    rw [d3, d4] at hp
    have hp' := mem_grid.mp hp
    rw [hM.get p hp'.1 hp'.2]
    split
    · omega
    · split
      · omega
      · rw [hug p hp'.1 hp'.2]
        have := hv p (by rw [hdg.1, hdg.2]; exact hp)
        split <;> omega
  have hch : ∃ τ, ReachConsistent h τ := by
    obtain ⟨σ, hσ⟩ := hcons
    have := (hM.consistent hu hr (fun q hq => (hM.basicIs q hq).2 σ hσ) (fun q hq => (hM.basicNot q hq).2 σ hσ)
      fun _ _ => rfl).mp hσ
    exact ⟨σ, fun p hp _ _ => this p hp⟩
  obtain ⟨lo, hi, e1, -, e3⟩ := cal_possibility_onboard_exact h hne hvh hch (mines : ℚ)
  have hML : MinesLeft h (mines : ℚ) lo hi m := by
    unfold MinesLeft
    rw [if_pos (by exact_mod_cast hm), hcard]
    simp only [Int.floor_natCast]
    omega
  have hlo : lo ≤ m := by
    apply e1.2
    show (layouts h m).Nonempty
    rw [← Finset.card_pos, ← hall, Finset.card_pos]
    exact hl
  obtain ⟨P, p1, p2, p3, p4⟩ := (e3 m hML).2 hlo
  have hpos : (layouts (unmark g) mines).card ≠ 0 := Finset.card_ne_zero.mpr hl
  refine ⟨P, p2.trans d3, fun l hl => (p3 l hl).trans d4, fun i j hi' hj' => ?_, fun G hg => ?_⟩
  · rw [p4 i j (by rw [d3]; exact hi') (by rw [d4]; exact hj')]
    have hget := hM.get (i, j) hi' hj'
    have hgu := hug (i, j) hi' hj'
    simp only at hget hgu
    by_cases h10 : g.get i j < 10
    · have hno : ∀ {v : Bool}, ¬ (Frontier (unmark g) (i, j) ∧ Certain (unmark g) (i, j) v) := by
        intro v hf
        have := hf.1.1.2
        simp only at this
        rw [hgu] at this
        split at this <;> omega
      have hx : h.get i j = g.get i j := by
        rw [hget, if_neg (fun hb => hno (hM.basicIs _ hb)), if_neg (fun hb => hno (hM.basicNot _ hb)), hgu,
          if_neg (by omega)]
      rw [if_pos h10, hx, if_neg (by omega), if_neg (by omega)]
    · rw [if_neg h10]
      by_cases hb : (i, j) ∈ bi
      · rw [hget, if_pos hb, if_pos rfl]
        have : (layouts (unmark g) mines).filter (fun A => (i, j) ∈ A) = layouts (unmark g) mines := by
          apply Finset.filter_true_of_mem
          intro A hA
          rw [layouts_mem hre hcons] at hA
          have := (hM.basicIs _ hb).2 _ hA.2.2
          simpa using this
        rw [this, div_self (by exact_mod_cast hpos)]
      · by_cases hb2 : (i, j) ∈ bn
        · rw [hget, if_neg hb, if_pos hb2, if_neg (by omega), if_neg (by omega)]
          have : (layouts (unmark g) mines).filter (fun A => (i, j) ∈ A) = ∅ := by
            apply Finset.filter_false_of_mem
            intro A hA
            rw [layouts_mem hre hcons] at hA
            have := (hM.basicNot _ hb2).2 _ hA.2.2
            simpa using this
          rw [this]; simp
        · have hx : h.get i j = 10 := by
            rw [hget, if_neg hb, if_neg hb2, hgu]
            split <;> omega
          rw [hx, if_neg (by omega), if_pos rfl]
          unfold chance
          rw [← hall, if_neg hpos]
          congr 2
          have := hcf (fun A => (i, j) ∈ A) (fun A => (i, j) ∈ A) fun B _ => by simp [hb]
          rw [hmm]
          refine congrArg _ ?_
          convert this.symm using 2 <;> (ext A; simp)
  · obtain ⟨-, h2, G', h3, -, -, -, -, h4, h5⟩ := hG G hg
    unfold GameBoard.getPoss
    cases hp : G.hasPoss with
    | true =>
      obtain ⟨P', rng, h6, h7⟩ := h2 hp
      rw [p1] at h6
      simp only [Option.some.injEq, Except.ok.injEq, Prod.mk.injEq] at h6
      simp [h7, h6.1]
    | false =>
      simp only [Bool.false_eq_true, if_false, h3, Option.bind_eq_bind, Option.bind_some, h4, h5, p1]
      rfl

/-- **C53** With fewer mines than every layout needs, `get_poss` panics. -/
theorem C53_poss_panics (g : Board) (r c mines : Nat) (hrect : Rect g r c) (hr : 0 < r) (hv : Shown g)
    (hm : 1 ≤ mines) (hre : ∀ p, IsNumber (unmark g) p → InReach (unmark g) p)
    (hl : ∀ k ≤ mines, layouts (unmark g) k = ∅) (hcons : ∃ σ, Consistent (unmark g) σ) :
    ((GameBoard.new mines).setBoard g).getPoss = none := by
  obtain ⟨h, bn, bi, en, hM, hG⟩ := asked_mark (mines := mines) hrect hr hcons
  obtain ⟨hu, hug⟩ := unmark_spec g r c hrect
  have hle := fun p h1 h2 => unmark_le hrect p h1 h2
  obtain ⟨d1, d2, d3, d4⟩ := hM.dims hu hr
  have hdg := rect_dims hrect hr
  have hnd := List.nodup_append.mp hM.nodup
  have hcard : (markedSet h).card = bi.length := by
    rw [hM.markedSet hu hr hle]; exact List.toFinset_card_of_nodup hnd.2.1
  have hne : h ≠ [] := by
    intro hh
    have := hM.rect.len
    rw [hh] at this
    simp at this
    omega
  have hvh : ∀ p ∈ grid h.row h.col, 0 ≤ h.get p.1 p.2 := by
    intro p hp
    rw [d3, d4] at hp
    have hp' := mem_grid.mp hp
    rw [hM.get p hp'.1 hp'.2]
    split
    · omega
    · split
      · omega
      · rw [hug p hp'.1 hp'.2]
        have := hv p (by rw [hdg.1, hdg.2]; exact hp)
        split <;> omega
  have hch : ∃ τ, ReachConsistent h τ := by
    obtain ⟨σ, hσ⟩ := hcons
    have := (hM.consistent hu hr (fun q hq => (hM.basicIs q hq).2 σ hσ) (fun q hq => (hM.basicNot q hq).2 σ hσ)
      fun _ _ => rfl).mp hσ
    exact ⟨σ, fun p hp _ _ => this p hp⟩
  obtain ⟨e, he⟩ : ∃ e, calPossibilityOnboard h (mines : ℚ) = some (.error e) := by
    by_cases hmle : bi.length ≤ mines
    · obtain ⟨m, hmm⟩ : ∃ m, mines = m + bi.length := ⟨mines - bi.length, by omega⟩
      obtain ⟨lo, hi, e1, -, e3⟩ := cal_possibility_onboard_exact h hne hvh hch (mines : ℚ)
      have hML : MinesLeft h (mines : ℚ) lo hi m := by
        unfold MinesLeft
        rw [if_pos (by exact_mod_cast hm), hcard]
        simp only [Int.floor_natCast]
        omega
      refine ⟨3, (e3 m hML).1 ?_⟩
      obtain ⟨B, hB⟩ := e1.1
      have := ((hM.layouts hu hr hre hcons lo).2 B hB).1
      by_contra hlt
      rw [hl (lo + bi.length) (by omega)] at this
      simp at this
    · refine ⟨17, ?_⟩
      unfold calPossibilityOnboard
      rw [cal_possibility_too_few_mines h hne hvh hch (mines : ℚ) (by exact_mod_cast hm)
        (by rw [hcard, Int.floor_natCast]; omega)]
  obtain ⟨-, -, G', h3, -, -, -, -, h4, h5⟩ := hG _ .set
  unfold GameBoard.getPoss
  have : ((GameBoard.new mines).setBoard g).hasPoss = false := rfl
  simp only [this, Bool.false_eq_true, if_false, h3, Option.bind_eq_bind, Option.bind_some, h4, h5, he]

/-! ### concrete cases -/

/-- a position with a wrong flag -/
def gbSample : Board := [[1, 11, 10, 10], [1, 10, 2, 10]]

theorem gbSample_consistent : Consistent (unmark gbSample) (fun p => decide (p = (0, 1) ∨ p = (0, 2))) := by
  intro p hp
  have hg : p ∈ grid 2 4 := hp.1
  have h10 := hp.2.2
  have : ∀ p ∈ grid 2 4, Board.get (unmark gbSample) p.1 p.2 < 10 →
      Board.get (unmark gbSample) p.1 p.2 = minesNear (unmark gbSample) (fun p => decide (p = (0, 1) ∨ p = (0, 2))) p := by
    decide +kernel
  exact this p hg h10

/-- The hypotheses of `C53_certain` and `C53_poss` hold for it ... -/
example : Rect gbSample 2 4 ∧ Shown gbSample ∧ (∃ σ, Consistent (unmark gbSample) σ) ∧
    (∀ p, IsNumber (unmark gbSample) p → InReach (unmark gbSample) p) ∧ (layouts (unmark gbSample) 2).Nonempty := by
  have hreach : ∀ p, IsNumber (unmark gbSample) p → InReach (unmark gbSample) p := fun p _ =>
    inReach_small _ (by decide +kernel) p
  refine ⟨⟨rfl, by decide⟩, by unfold Shown; decide +kernel, ⟨_, gbSample_consistent⟩, hreach, {(0, 1), (0, 2)}, ?_⟩
  refine (layouts_mem hreach ⟨_, gbSample_consistent⟩ 2 _).mpr ⟨?_, by decide, ?_⟩
  · have : ∀ q ∈ ({(0, 1), (0, 2)} : Finset Pos), q ∈ grid 2 4 ∧ Board.get (unmark gbSample) q.1 q.2 = 10 := by decide +kernel
    exact this
  · have := gbSample_consistent
    simpa using this

/-- ... and the answer is that the flagged cell has a mine in one layout out of two. -/
example : ((GameBoard.new 2).setBoard gbSample).getPoss.map (·.2) =
    some [[some 0, some (1/2), some (1/3), some (1/3)], [some 0, some (1/2), some 0, some (1/3)]] := by decide +kernel

/-- A board on which all three lists are filled: the basic engines find a safe cell and a mine, the enumeration two
further safe cells. -/
example : (((GameBoard.new 3).setBoard [[10, 2, 3, 10, 10], [1, 10, 10, 10, 10], [10, 2, 10, 2, 1]]).getEnumNot.map
    fun a => (a.1.basicNot, a.1.basicIs, a.2)) = some ([(2, 0)], [(1, 2)], [(2, 2), (0, 0)]) := by decide +kernel

/-- **C53** Finding: `set_game_board` on an object that was asked before does not forget: the answers are those for the
previous board. -/
theorem C53_stale : ∃ G, (((GameBoard.new 1).setBoard [[1, 10]]).getPoss.map (·.1)) = some G ∧
    (G.setBoard [[10, 1]]).getPoss.map (·.2) = some [[some 0, some 1]] ∧
    ((GameBoard.new 1).setBoard [[10, 1]]).getPoss.map (·.2) = some [[some 1, some 0]] ∧
    (G.setBoard [[10, 1]]).getBasicIs.map (·.2) = some [(0, 1)] := by
  have h : (((GameBoard.new 1).setBoard [[1, 10]]).getPoss.map (·.1)).map (fun G =>
      ((G.setBoard [[10, 1]]).getPoss.map (·.2), (G.setBoard [[10, 1]]).getBasicIs.map (·.2))) =
      some (some [[some 0, some 1]], some [(0, 1)]) := by decide +kernel
  rw [Option.map_eq_some_iff] at h
  obtain ⟨G, h1, h2⟩ := h
  simp only [Prod.mk.injEq] at h2
  exact ⟨G, h1, h2.1, by decide +kernel, h2.2⟩

/-- **C53** Finding: a `GameBoard` for 0 mines takes the number for a density, and panics on a board that shows a 1,
although a layout explains the board. -/
theorem C53_zero_mines : ((GameBoard.new 0).setBoard [[1, 10]]).getPoss = none ∧
    ((GameBoard.new 0).setBoard [[10, 10]]).getPoss.map (·.2) = some [[some 0, some 0]] := by
  refine ⟨?_, by decide +kernel⟩
  have : (((GameBoard.new 0).setBoard [[1, 10]]).getPoss.map (·.2)) = none := by decide +kernel
  simpa using this

/-- **C53** Finding: with more mines than fit, the probabilities are NaN instead of an error. -/
theorem C53_too_many : ((GameBoard.new 5).setBoard gbSample).getPoss.map (·.2) =
    some [[some 0, none, none, none], [some 0, none, some 0, none]] := by decide +kernel

end Ms.Properties
