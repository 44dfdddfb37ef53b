import Verif.Lemmas.GameTurn
import Verif.Properties.GameStats
import Verif.Properties.Turn

/-! # C88: a game played in a mirror -/

namespace Ms.Properties
open Ms.Spec

variable {σ τ : Pos → Pos}

/-- **C88** new games on a board and on the turned board look alike. -/
theorem C88_new {v w : View} (h : Turned σ τ v w) : SameGame σ τ (MSB.new v) (MSB.new w) := by
  refine ⟨h.turn, h.cells, fun p hp => ?_, fun p _ => ⟨fun k => (List.not_mem_nil k).elim, fun k => (List.not_mem_nil k).elim⟩,
    rfl, rfl, rfl, rfl, rfl, rfl, rfl, rfl, rfl⟩
  have hp' := mem_grid.mp (h.turn.there p hp).1
  have hp := mem_grid.mp hp
  show (Board.build w.row w.col fun _ _ => 10).get _ _ = (Board.build v.row v.col fun _ _ => 10).get _ _
  rw [get_build _ hp'.1 hp'.2]; exact (get_build (fun _ _ => (10 : Int)) hp.1 hp.2).symm

/-- **C88** and so do games that have been reset. -/
theorem C88_reset {s t : MSB} (h : SameGame σ τ s t) : SameGame σ τ s.reset t.reset := by
  have hb : ∀ x : Int, ∀ p ∈ grid s.row s.column, (Board.build t.row t.column fun _ _ => x).get (σ p).1 (σ p).2 =
      (Board.build s.row s.column fun _ _ => x).get p.1 p.2 := by
    intro x p hp
    have hp' := mem_grid.mp (h.turn.there p hp).1
    have hp := mem_grid.mp hp
    rw [get_build _ hp'.1 hp'.2]; exact (get_build (fun _ _ => x) hp.1 hp.2).symm
  exact ⟨h.turn, hb 0, hb 10, fun p _ => ⟨fun k => (List.not_mem_nil k).elim, fun k => (List.not_mem_nil k).elim⟩,
    rfl, rfl, rfl, rfl, rfl, rfl, rfl, h.preFlagNum, h.middleHold⟩

/-- **C88** one event: games that look alike look alike after it, and `step` returns the same (or panics in both). -/
theorem C88_step {s t : MSB} (hs : Reach s) (ht : Reach t) (h : SameGame σ τ s t) (e : Ev) {p p' : Pos}
    (hp : SamePlace s.row s.column t.row t.column σ p p') : SameStep σ τ (s.step e p) (t.step e p') :=
  MSB.step_turn hs.inv ht.inv h e hp

theorem flow_dims {s s' : MSB} (h : Reach s) {e : Ev} {p : Pos} {r : Option Nat} (hs : s.step e p = some (s', r)) :
    s'.row = s.row ∧ s'.column = s.column := ((MSB.step_eff hs).frame h.inv).2

/-- **C88** any sequence of operations on games that look alike. -/
theorem C88_flow : ∀ {ops ops' : List (Ev × Pos)} {s t : MSB}, Reach s → Reach t → SameGame σ τ s t →
    SameOps s.row s.column t.row t.column σ ops ops' → SameFlow σ τ (s.stepFlow ops) (t.stepFlow ops')
  | [], _, s, t, _, _, h, hk => by
    cases hk
    exact .inr ⟨s, t, true, rfl, rfl, h⟩
  | a :: ops, _, s, t, hs, ht, h, hk => by
    cases hk with
    | cons hab hr =>
      rename_i b ops'
      have hstep := C88_step hs ht h a.1 hab.2
      rw [← hab.1] at hstep
      unfold MSB.stepFlow
      rw [← hab.1]
      rcases hstep with ⟨e1, e2⟩ | ⟨s', t', r, e1, e2, h'⟩
      · rw [e1, e2]; exact .inl ⟨rfl, rfl⟩
      · have d1 := flow_dims hs e1
        have d2 := flow_dims ht e2
        rw [e1, e2]
        cases r with
        | none => exact .inr ⟨s', t', false, rfl, rfl, h'⟩
        | some k =>
          refine C88_flow (hs.step e1) (ht.step e2) h' ?_
          rw [d1.1, d1.2, d2.1, d2.2]
          exact hr

/-- **C88** a game on the turned board, played at the turned places, is the turned game. -/
theorem C88_game {v w : View} (h : Turned σ τ v w) (hv : Numbered v) {ops ops' : List (Ev × Pos)}
    (hk : SameOps v.row v.col w.row w.col σ ops ops') :
    SameFlow σ τ ((MSB.new v).stepFlow ops) ((MSB.new w).stepFlow ops') :=
  C88_flow (.new hv) (.new (turned_numbered h hv)) (C88_new h) hk

/-! ### the solved 3BV -/

theorem turned_comp {v w : View} (h : Turned σ τ v w) {p : Pos} (hp : p ∈ zeros v) : comp w (σ p) = (comp v p).image σ := by
  have hz := turned_zeros h
  ext q
  rw [Finset.mem_image, mem_comp]
  constructor
  · rintro ⟨a, b⟩
    have hb := h.turn.back q (hz.sub' a)
    have := (hz.symm h.turn).linked h.turn.symm b
    rw [(h.turn.there p (hz.sub hp)).2] at this
    exact ⟨τ q, mem_comp.mpr ⟨((hz.symm h.turn).iff q (hz.sub' a)).mp a, this⟩, hb.2⟩
  · rintro ⟨a, ha, rfl⟩
    obtain ⟨h1, h2⟩ := mem_comp.mp ha
    exact ⟨(hz.iff a (hz.sub h1)).mp h1, hz.linked h.turn h2⟩

theorem openComps_image {v w : View} {g g' : Board} (h : Turned σ τ v w) (hg : ∀ p ∈ vcells v, shown g' (σ p) = shown g p)
    {C : Finset Pos} (hC : C ∈ openComps v g) : C.image σ ∈ openComps w g' ∧ (C.image σ).image τ = C := by
  obtain ⟨h1, h2⟩ := mem_openComps.mp hC
  obtain ⟨p, hp, rfl⟩ := mem_comps.mp h1
  have hz := turned_zeros h
  refine ⟨mem_openComps.mpr ⟨mem_comps.mpr ⟨σ p, (hz.iff p (hz.sub hp)).mp hp, turned_comp h hp⟩, ?_⟩, ?_⟩
  · intro z hzz
    obtain ⟨a, ha, rfl⟩ := Finset.mem_image.mp hzz
    rw [hg a (hz.sub (mem_comp.mp ha).1)]
    exact h2 a ha
  · rw [Finset.image_image]
    have : ∀ a ∈ comp v p, (τ ∘ σ) a = id a := fun a ha => (h.turn.there a (hz.sub (mem_comp.mp ha).1)).2
    rw [Finset.image_congr (g := id) this, Finset.image_id]

theorem turned_openComps {v w : View} {g g' : Board} (h : Turned σ τ v w) (hg : ∀ p ∈ vcells v, shown g' (σ p) = shown g p) :
    (openComps w g').card = (openComps v g).card := by
  have hg' : ∀ p ∈ vcells w, shown g (τ p) = shown g' p := fun p hp => by
    have hb := h.turn.back p hp
    rw [← hg _ hb.1, hb.2]
  symm
  refine Finset.card_nbij' (fun C => C.image σ) (fun C => C.image τ) ?_ ?_ ?_ ?_
  · intro C hC; exact (openComps_image h hg hC).1
  · intro C hC; exact (openComps_image h.symm hg' hC).1
  · intro C hC; exact (openComps_image h hg hC).2
  · intro C hC; exact (openComps_image h.symm hg' hC).2

theorem sameGame_turned {s t : MSB} (hs : s.Core) (ht : t.Core) (h : SameGame σ τ s t) : Turned σ τ s.board t.board := by
  refine ⟨?_, ?_⟩
  · rw [hs.hrow, hs.hcol, ht.hrow, ht.hcol]; exact h.turn
  · rw [hs.hrow, hs.hcol]; exact h.bd

/-- **C88** `bbbv_solved` is the same in games that look alike, provided no zero cell carried a flag while cells were opened.
Missing: without this it is false (`C88_bbbv_solved_refuted`). -/
theorem C88_solved_partial {s t : MSB} (hs : CalmRun s) (ht : CalmRun t) (h : SameGame σ τ s t) : t.bbbvSolved = s.bbbvSolved := by
  have hT := sameGame_turned hs.reach.inv.core ht.reach.inv.core h
  have hg : ∀ p ∈ vcells s.board, shown t.gameBoard (σ p) = shown s.gameBoard p := fun p hp => by
    rw [hs.reach.inv.core.vcells] at hp
    exact h.gb p hp
  rw [(C22_solved_shown_partial s hs).1, (C22_solved_shown_partial t ht).1, turned_openComps hT hg]
  congr 1
  refine Pair.card hT.turn ((turned_isolated hT).filter _ _ fun p hp => ?_)
  rw [hg p ((turned_isolated hT).sub hp)]

theorem noZeroFlagged_turned {s t : MSB} (hs : s.Core) (ht : t.Core) (h : SameGame σ τ s t) (hn : NoZeroFlagged s) : NoZeroFlagged t := by
  intro z hz h0
  rw [ht.vcells] at hz
  have hb := h.turn.back z hz
  have h1 : val t.board (σ (τ z)) = val s.board (τ z) := h.bd _ hb.1
  have h2 : shown t.gameBoard (σ (τ z)) = shown s.gameBoard (τ z) := h.gb _ hb.1
  rw [hb.2] at h1 h2
  rw [h2]
  exact hn _ (by rw [hs.vcells]; exact hb.1) (by rw [← h1]; exact h0)

/-- **C88** if at no time of the game a zero cell carries a flag, the two games have the same `bbbv_solved` at every time. -/
theorem C88_game_solved : ∀ {ops ops' : List (Ev × Pos)} {s t : MSB}, CalmRun s → CalmRun t → SameGame σ τ s t →
    SameOps s.row s.column t.row t.column σ ops ops' →
    (∀ k s' b, s.stepFlow (ops.take k) = some (s', b) → NoZeroFlagged s') →
    ∀ s' t' b, s.stepFlow ops = some (s', b) → t.stepFlow ops' = some (t', b) → t'.bbbvSolved = s'.bbbvSolved
  | [], _, s, t, hs, ht, h, hk, hn, s', t', b, e1, e2 => by
    cases hk
    simp only [MSB.stepFlow, Option.some.injEq, Prod.mk.injEq] at e1 e2
    rw [← e1.1, ← e2.1]
    exact C88_solved_partial hs ht h
  | a :: ops, _, s, t, hs, ht, h, hk, hn, s', t', b, e1, e2 => by
    cases hk with
    | cons hab hr =>
      rename_i a' ops'
      have hstep := C88_step hs.reach ht.reach h a.1 hab.2
      have hn0 : NoZeroFlagged s := hn 0 s true rfl
      have hn0' := noZeroFlagged_turned hs.reach.inv.core ht.reach.inv.core h hn0
      unfold MSB.stepFlow at e1 e2
      rw [hab.1] at e2
      rcases hstep with ⟨f1, f2⟩ | ⟨s1, t1, r, f1, f2, h'⟩
      · rw [f1] at e1; simp at e1
      · have d1 := flow_dims hs.reach f1
        have d2 := flow_dims ht.reach f2
        have c1 : CalmRun s1 := .step hs f1 fun _ => hn0
        have c2 : CalmRun t1 := .step ht f2 fun _ => hn0'
        rw [f1] at e1
        rw [f2] at e2
        cases r with
        | none =>
          simp only [Option.some.injEq, Prod.mk.injEq] at e1 e2
          rw [← e1.1, ← e2.1]
          exact C88_solved_partial c1 c2 h'
        | some k =>
          simp only at e1 e2
          refine C88_game_solved c1 c2 h' (by rw [d1.1, d1.2, d2.1, d2.2]; exact hr) (fun k' s2 b2 e => ?_) s' t' b e1 e2
          refine hn (k' + 1) s2 b2 ?_
          rw [List.take_succ_cons]
          unfold MSB.stepFlow
          rw [f1]
          exact e

/-! ### the refuted clause -/

def mirrorSample : Board := [[0, 0, 0, 0], [0, 0, 1, 1], [0, 0, 1, -1]]

/-- open `(1,2)`, flag the mine, flag a zero by mistake, chord on `(1,2)` -/
def mirrorGame : List (Ev × Pos) :=
  [(.lc, (1, 2)), (.lr, (1, 2)), (.rc, (2, 3)), (.rr, (2, 3)), (.rc, (2, 0)), (.rr, (2, 0)),
   (.lc, (1, 2)), (.rc, (1, 2)), (.rr, (1, 2)), (.lr, (1, 2))]

/-- the same in the mirror -/
def mirrorGame' : List (Ev × Pos) := mirrorGame.map fun a => (a.1, (a.2.1, 3 - a.2.2))

theorem mirrorSample_numbered : Numbered mirrorSample.view := by unfold Numbered; decide

theorem mirrorGame_same : SameOps 3 4 3 4 (fun p => (p.1, 4 - 1 - p.2)) mirrorGame mirrorGame' := by
  unfold SameOps mirrorGame' mirrorGame
  simp only [List.map_cons, List.map_nil]
  repeat' first
    | exact List.Forall₂.nil
    | refine List.Forall₂.cons ⟨rfl, .inl ⟨by decide, rfl⟩⟩ ?_

/-- **C88 (refuted)** `bbbv_solved` depends on which way the board lies: after the same game it is 1 on a board and 0 on its mirror
image. -/
theorem C88_bbbv_solved_refuted : ∃ (b : Board) (ops ops' : List (Ev × Pos)) (s t : MSB),
    Rect b 3 4 ∧ Numbered b.view ∧ SameOps 3 4 3 4 (fun p => (p.1, 4 - 1 - p.2)) ops ops' ∧
    (MSB.new b.view).stepFlow ops = some (s, true) ∧ (MSB.new (mirror b).view).stepFlow ops' = some (t, true) ∧
    SameGame (fun p => (p.1, 4 - 1 - p.2)) (fun p => (p.1, 4 - 1 - p.2)) s t ∧ s.bbbvSolved = 1 ∧ t.bbbvSolved = 0 := by
  have hR : Rect mirrorSample 3 4 := ⟨by decide, by decide⟩
  have hT := (C87_mirror mirrorSample 3 4 hR (by omega)).2
  have h := C88_game hT mirrorSample_numbered mirrorGame_same
  have e1 : ((MSB.new mirrorSample.view).stepFlow mirrorGame).map (fun x => (x.1.bbbvSolved, x.2)) = some (1, true) := by decide +kernel
  have e2 : ((MSB.new (mirror mirrorSample).view).stepFlow mirrorGame').map (fun x => (x.1.bbbvSolved, x.2)) = some (0, true) := by decide +kernel
  rcases h with ⟨f1, _⟩ | ⟨s, t, r, f1, f2, hs⟩
  · rw [f1] at e1; simp at e1
  · rw [f1] at e1
    rw [f2] at e2
    simp only [Option.map_some, Option.some.injEq, Prod.mk.injEq] at e1 e2
    refine ⟨mirrorSample, mirrorGame, mirrorGame', s, t, hR, mirrorSample_numbered, mirrorGame_same, ?_, ?_, hs, e1.1, e2.1⟩
    · rw [f1, e1.2]
    · rw [f2, e2.2]

/-- a game that is not calm ends differently only in this number; the first seven operations are calm -/
example : ((MSB.new mirrorSample.view).stepFlow (mirrorGame.take 4)).map (fun x => (x.1.left, x.1.right, x.1.bbbvSolved)) = some (1, 1, 0) := by
  decide +kernel

end Ms.Properties
