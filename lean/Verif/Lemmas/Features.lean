import Verif.SpecFeatures
import Verif.Properties.Player

/-! # The feature analyses -/

namespace Ms
open Spec MSB Properties

variable {dist : Pos → Pos → ℚ}

/-! ## the position before an event -/

theorem rightClick_level {s s' : MSB} {p : Pos} {a : Nat} (h : s.rightClick p = some (s', some a)) :
    (a = 1 ∧ p ∈ grid s.row s.column) ∨ (a = 0 ∧ s'.gameBoard = s.gameBoard) := by
  unfold rightClick at h
  split at h
  · cases h
  rename_i hr
  simp only [not_not] at hr
  have hp := inRange_iff.mp hr
  simp only at h
  split at h
  · simp only [Option.some.injEq, Prod.mk.injEq] at h; exact .inr ⟨h.2.symm, by rw [← h.1]⟩
  split at h
  · split at h
    · simp only [Option.some.injEq, Prod.mk.injEq] at h; exact .inl ⟨h.2.symm, hp⟩
    · simp only [Option.some.injEq, Prod.mk.injEq] at h; exact .inl ⟨h.2.symm, hp⟩
  split at h
  · split at h
    · cases h
    · simp only [Option.some.injEq, Prod.mk.injEq] at h; exact .inl ⟨h.2.symm, hp⟩
  · simp only [Option.some.injEq, Prod.mk.injEq] at h; cases h.2

theorem leftClick_level {s s' : MSB} {p : Pos} {a : Nat} (h : s.leftClick p = some (s', some a)) :
    (a = 2 ∧ p ∈ grid s.row s.column ∧ s.gb p = 10) ∨ (a = 0 ∧ (s'.gameBoard = s.gameBoard ∨ s'.state = .loss)) := by
  unfold leftClick at h
  split at h
  · cases h
  rename_i hr
  simp only [not_not] at hr
  have hp := inRange_iff.mp hr
  simp only at h
  split at h
  · simp only [Option.some.injEq, Prod.mk.injEq] at h; exact .inr ⟨h.2.symm, .inl (by rw [← h.1])⟩
  rename_i h10
  simp only [ne_eq, not_not] at h10
  have h10 : s.gb p = 10 := h10
  split at h
  · rw [Option.bind_eq_some_iff] at h
    obtain ⟨_, -, h⟩ := h
    simp only [Option.map_eq_some_iff, Prod.mk.injEq, Option.some.injEq] at h
    obtain ⟨_, -, -, h⟩ := h
    exact .inl ⟨h.symm, hp, h10⟩
  split at h
  · simp only [Option.map_eq_some_iff, Prod.mk.injEq, Option.some.injEq] at h
    obtain ⟨_, -, h, h'⟩ := h
    exact .inr ⟨h'.symm, .inr (by rw [← h])⟩
  · simp only [Option.map_eq_some_iff, Prod.mk.injEq, Option.some.injEq] at h
    obtain ⟨_, -, -, h⟩ := h
    exact .inl ⟨h.symm, hp, h10⟩

theorem chordingClick_level {s s' : MSB} {p : Pos} {a : Nat} (h : s.chordingClick p = some (s', some a)) :
    (a = 3 ∧ p ∈ grid s.row s.column ∧ s.gb p < 10) ∨ (a = 0 ∧ s'.gameBoard = s.gameBoard) := by
  unfold chordingClick at h
  split at h
  · cases h
  rename_i hr
  simp only [not_not] at hr
  have hp := inRange_iff.mp hr
  simp only at h
  split at h
  · simp only [Option.some.injEq, Prod.mk.injEq] at h; exact .inr ⟨h.2.symm, by rw [← h.1]⟩
  rename_i h8
  have h8 : ¬ (s.gb p = 0 ∨ s.gb p ≥ 8) := h8
  split at h
  · rw [Option.bind_eq_some_iff] at h
    obtain ⟨_, -, h⟩ := h
    simp only [Option.map_eq_some_iff, Prod.mk.injEq, Option.some.injEq] at h
    obtain ⟨_, -, -, h⟩ := h
    exact .inl ⟨h.symm, hp, by omega⟩
  · simp only [Option.some.injEq, Prod.mk.injEq] at h; exact .inr ⟨h.2.symm, by rw [← h.1]⟩

/-- What the level of an event tells. -/
theorem step_level_cell {s s' : MSB} {e : Ev} {p : Pos} {a : Nat} (hg : s.GInv) (hs : s.step e p = some (s', some a)) :
    (1 ≤ a → p ∈ grid s.row s.column) ∧ (a = 2 → s.gb p = 10) ∧ (a = 3 → s.gb p < 10) ∧ a ≤ 3 ∧
    (a = 0 → s'.state = .loss ∨ ∀ q ∈ grid s.row s.column, s.gb q < 10 ∨ s'.gb q < 10 → s.gb q = s'.gb q) := by
  have heff := MSB.step_eff hs
  generalize hra : some a = ra at heff
  cases heff with
  | idle m mh r hr _ =>
    subst hra
    rcases hr with hr | hr
    · cases hr
    · simp only [Option.some.injEq] at hr
      subst hr
      exact ⟨by omega, by omega, by omega, by omega, fun _ => .inr fun q _ _ => rfl⟩
  | start => 
    simp only [Option.some.injEq] at hra
    subst hra
    exact ⟨by omega, by omega, by omega, by omega, fun _ => .inr fun q _ _ => rfl⟩
  | back =>
    simp only [Option.some.injEq] at hra
    subst hra
    exact ⟨by omega, by omega, by omega, by omega, fun _ => .inr fun q _ _ => rfl⟩
  | backClear =>
    simp only [Option.some.injEq] at hra
    subst hra
    exact ⟨by omega, by omega, by omega, by omega, fun _ => .inr fun q _ _ => rfl⟩
  | unflagLast h hp h10 h0 =>
    simp only [Option.some.injEq] at hra
    subst hra
    refine ⟨by omega, by omega, by omega, by omega, fun _ => .inr fun q hq hlt => ?_⟩
    have hq' := mem_grid.mp hq
    have hp' := mem_grid.mp hp
    have h1 := (hg.pre (.inr h)).1 q hq
    have h2 : ({ s with mouse := .upDown, state := .ready, preFlagNum := 0, flag := 0, flagedList := [],
                         double := 0, left := 0, right := 0, gameBoard := s.gameBoard.set p.1 p.2 10 } : MSB).gb q =
        if q.1 = p.1 ∧ q.2 = p.2 then 10 else s.gb q := get_set hg.core.rect hp'.1 hp'.2 _ _ _
    rw [h2] at hlt
    exfalso
    split at hlt <;> omega
  | preFlag m k s' r h hm hp hk h10 hc =>
    subst hra
    rcases rightClick_level hc with ⟨rfl, -⟩ | ⟨rfl, hgb⟩
    · exact ⟨fun _ => hp, by omega, by omega, by omega, by omega⟩
    · exact ⟨by omega, by omega, by omega, by omega, fun _ => .inr fun q _ _ => by unfold gb; rw [hgb]⟩
  | preUnflag m k s' r h hm hp hk hk' h10 hc =>
    subst hra
    rcases rightClick_level hc with ⟨rfl, -⟩ | ⟨rfl, hgb⟩
    · exact ⟨fun _ => hp, by omega, by omega, by omega, by omega⟩
    · exact ⟨by omega, by omega, by omega, by omega, fun _ => .inr fun q _ _ => by unfold gb; rw [hgb]⟩
  | right m s' r h hm hp hc =>
    subst hra
    rcases rightClick_level hc with ⟨rfl, -⟩ | ⟨rfl, hgb⟩
    · exact ⟨fun _ => hp, by omega, by omega, by omega, by omega⟩
    · exact ⟨by omega, by omega, by omega, by omega, fun _ => .inr fun q _ _ => by unfold gb; rw [hgb]⟩
  | left m s' r h hm hm' hc =>
    subst hra
    rcases leftClick_level hc with ⟨rfl, hp, h10⟩ | ⟨rfl, hgb | hgb⟩
    · exact ⟨fun _ => hp, fun _ => h10, by omega, by omega, by omega⟩
    · exact ⟨by omega, by omega, by omega, by omega, fun _ => .inr fun q _ _ => by unfold gb; rw [hgb]⟩
    · exact ⟨by omega, by omega, by omega, by omega, fun _ => .inl hgb⟩
  | chord m mh dec s' r h hm hm' hc =>
    subst hra
    rcases chordingClick_level hc with ⟨rfl, hp, h10⟩ | ⟨rfl, hgb⟩
    · exact ⟨fun _ => hp, by omega, fun _ => h10, by omega, by omega⟩
    · exact ⟨by omega, by omega, by omega, by omega, fun _ => .inr fun q _ _ => by unfold gb; rw [hgb]⟩
  | miss =>
    simp only [Option.some.injEq] at hra
    subst hra
    exact ⟨by omega, by omega, by omega, by omega, fun _ => .inr fun q _ _ => rfl⟩

theorem faithful_new {v : View} (p : Pos) (hp : p ∈ grid v.row v.col) : (MSB.new v).gb p = 10 := by
  have := mem_grid.mp hp
  exact get_build _ this.1 this.2

/-- The position an event of an analysed video met. -/
structure Met (v : View) (pix : Nat) (A : Replay) (r : Rec) (g : Board) : Prop where
  board : A.stream[r.prior]? = some g
  cell : r.cell pix ∈ grid v.row v.col
  level : r.useful ≤ 3
  two : r.useful = 2 → 10 ≤ g.get (r.cell pix).1 (r.cell pix).2
  three : r.useful = 3 → g.get (r.cell pix).1 (r.cell pix).2 < 10

theorem analyse_met {v : View} {pix : Nat} (hv : Numbered v) : ∀ {evs : List RawEv} {A : Replay},
    analyse dist v v.row v.col pix evs = some A →
    (A.msb.state ≠ .loss → ∃ g, A.stream.getLast? = some g ∧ SameNumbers g A.msb.gameBoard v.row v.col) ∧
    ∀ (i : Nat) (r : Rec), A.recs[i]? = some r → 1 ≤ r.useful → ∃ g m0, Met v pix A r g ∧ play pix v (evs.take i) = some m0 ∧
      SameNumbers g m0.gameBoard v.row v.col := by
  intro evs
  induction evs using List.reverseRecOn with
  | nil =>
    intro A hA
    simp only [analyse, List.foldlM_nil, Option.pure_def, Option.some.injEq] at hA
    subst hA
    refine ⟨fun _ => ⟨_, rfl, fun p hp _ => ?_⟩, fun i r hr => by simp at hr⟩
    have hp' := mem_grid.mp hp
    have h1 : (MSB.new v).gameBoard.get p.1 p.2 = 10 := faithful_new p hp
    exact (show (coveredBoard v.row v.col).get p.1 p.2 = 10 from get_build _ hp'.1 hp'.2).trans h1.symm
  | append_singleton evs e ih =>
    intro A' hA
    rw [analyse_snoc, Option.bind_eq_some_iff] at hA
    obtain ⟨A, hA, hn⟩ := hA
    obtain ⟨ih1, ih2⟩ := ih hA
    have I := analyse_inv hv hA
    obtain ⟨m, a, path, n1, n2, n3, -, n5⟩ := next_eff hn
    have hG := I.reach.inv
    have hrow : A.msb.row = v.row := by rw [← hG.core.hrow, I.board]
    have hcol : A.msb.column = v.col := by rw [← hG.core.hcol, I.board]
    obtain ⟨c1, c2, c3, c4, c5⟩ := step_level_cell hG n1
    rw [hrow, hcol] at c1 c5
    have hpos : A.stream ≠ [] := by
      obtain ⟨h1, -⟩ := List.getElem?_eq_some_iff.mp I.first
      exact List.ne_nil_of_length_pos (by omega)
    refine ⟨fun hl => ?_, fun i r hr hu => ?_⟩
    · rw [n3]
      by_cases ha : a ≥ 1
      · rw [if_pos ha, n2]
        exact ⟨m.gameBoard, by simp, fun _ _ _ => rfl⟩
      · rw [if_neg ha, List.append_nil]
        rw [n2] at hl ⊢
        rcases c5 (by omega) with h | h
        · exact absurd h hl
        have hl' : A.msb.state ≠ .loss := by
          intro h1
          have := (step_level_playing n1 (.inr h1)).2
          exact hl (this.trans h1)
        obtain ⟨g, g1, g2⟩ := ih1 hl'
        refine ⟨g, g1, fun p hp hlt => ?_⟩
        have e1 := g2 p hp
        have e2 := h p hp
        unfold gb at e2
        by_cases hmid : A.msb.gameBoard.get p.1 p.2 < 10
        · rw [e1 (.inr hmid), e2 (.inl hmid)]
        · rcases hlt with hlt | hlt
          · have := e1 (.inl hlt); omega
          · have := e2 (.inr hlt); omega
    · rw [n5, List.getElem?_append] at hr
      split at hr
      · rename_i hi
        obtain ⟨g, m0, hg, hm0, hs⟩ := ih2 i r hr hu
        have hlen : evs.length = A.recs.length := by rw [← I.raw]; simp
        refine ⟨g, m0, { hg with board := ?_ }, by rw [List.take_append_of_le_length (by omega)]; exact hm0, hs⟩
        rw [n3, List.getElem?_append_left (List.getElem?_eq_some_iff.mp hg.board).1]
        exact hg.board
      · rw [List.getElem?_singleton] at hr
        split at hr
        · simp only [Option.some.injEq] at hr
          subst hr
          simp only at hu
          have hl' : A.msb.state ≠ .loss := by
            intro h1
            have := (step_level_playing n1 (.inr h1)).1
            omega
          obtain ⟨g, g1, g2⟩ := ih1 hl'
          have hp := c1 hu
          have hlen : evs.length = A.recs.length := by rw [← I.raw]; simp
          have hi : i = evs.length := by omega
          refine ⟨g, A.msb, ⟨?_, hp, c4, fun h2 => ?_, fun h3 => ?_⟩, ?_, g2⟩
          · show A'.stream[A.stream.length - 1]? = some g
            rw [n3, List.getElem?_append_left (by have := List.length_pos_iff.mpr hpos; omega), ← List.getLast?_eq_getElem?]
            exact g1
          · have h4 : A.msb.gameBoard.get _ _ = 10 := c2 h2
            by_contra hlt
            have hlt' : g.get (e.y / pix) (e.x / pix) < 10 := not_le.mp hlt
            have : g.get (e.y / pix) (e.x / pix) = 10 := (g2 _ hp (.inl hlt')).trans h4
            omega
          · have h4 : A.msb.gameBoard.get _ _ < 10 := c3 h3
            have := g2 _ hp (.inr h4)
            show g.get (e.y / pix) (e.x / pix) < 10
            simp only at this h4
            rw [this]; exact h4
          · rw [hi, List.take_left]; exact I.plays
        · cases hr

/-! ## what the boards of an analysed video are like -/

/-- the facts needed of a position to ask for it -/
structure Askable (v : View) (g : Board) : Prop where
  rect : Rect g v.row v.col
  shown : Shown g
  cons : ∃ σ, Consistent (unmark g) σ
  mem : (∀ p, IsNumber (unmark g) p → InReach (unmark g) p) → mines v ∈ layouts (unmark g) (mines v).card

theorem stream_askable {v : View} {pix : Nat} (hv : Numbered v) (h0 : 0 < v.row) {evs : List RawEv} {A : Replay}
    (hA : analyse dist v v.row v.col pix evs = some A) {g : Board} (hg : g ∈ A.stream) : Askable v g := by
  have J := analyse_inv hv hA
  have hf : Faithful v g := by
    rcases J.faithful g hg with h4 | h4
    · exact h4
    · rw [h4]; exact faithful_covered v
  have hcons := faithful_consistent hv hf h0
  obtain ⟨hu, hug⟩ := unmark_spec g v.row v.col hf.1
  have hd := rect_dims hu h0
  refine ⟨hf.1, ?_, ⟨_, hcons⟩, fun hre => ?_⟩
  · intro p hp
    have hd' := rect_dims hf.1 h0
    rw [hd'.1, hd'.2] at hp
    rcases hf.2 p hp with h4 | h4
    · omega
    · have := numbered_range hv hp
      omega
  · refine (layouts_mem hre ⟨_, hcons⟩ _ _).mpr ⟨fun q hq => ?_, rfl, hcons⟩
    unfold mines at hq
    rw [Finset.mem_filter] at hq
    have hq' := mem_grid.mp hq.1
    refine ⟨by rw [hd.1, hd.2]; exact hq.1, ?_⟩
    rw [hug q hq'.1 hq'.2]
    rcases hf.2 q hq.1 with h4 | h4
    · split <;> omega
    · exact absurd hq.2 h4.2

/-! ## asking -/

namespace Feat

/-- what the analyses keep -/
structure FInv (A : Replay) (k pix : Nat) (F : Feat) : Prop where
  recs : F.recs = A.recs
  pixEq : F.pix = pix
  len : F.comments.length = A.recs.length
  stream : List.Forall₂ (Asked k) A.stream F.stream

theorem ask_inv {α : Type} {A : Replay} {k pix id : Nat} {F F' : Feat} {q : GameBoard → Option (GameBoard × α)} {a : α} (c : Ask)
    (hq : ∀ G, GameBoard.ask G c = (q G).map (·.1)) (hI : FInv A k pix F) (h : F.ask id q = some (F', a)) :
    FInv A k pix F' ∧ F'.comments = F.comments := by
  unfold ask at h
  simp only [Option.bind_eq_bind, Option.pure_def, Option.bind_eq_some_iff, Option.some.injEq, Prod.mk.injEq, Prod.exists] at h
  obtain ⟨G, hG, G', b, hqG, rfl, -⟩ := h
  refine ⟨⟨hI.recs, hI.pixEq, hI.len, ?_⟩, rfl⟩
  have hlen := hI.stream.length_eq
  have hid := (List.getElem?_eq_some_iff.mp hG).1
  obtain ⟨G0, g1, g2⟩ := forall₂_get hI.stream (List.getElem?_eq_getElem (i := id) (by omega))
  rw [hG, Option.some.injEq] at g1
  subst g1
  exact forall₂_set_at hI.stream (List.getElem?_eq_getElem (i := id) (by omega)) (.ask (a := c) g2 (by rw [hq, hqG]; rfl))

theorem ask_some {α : Type} {A : Replay} {k pix id : Nat} {F : Feat} {q : GameBoard → Option (GameBoard × α)} {a : α} (c : Ask)
    (hq : ∀ G, GameBoard.ask G c = (q G).map (·.1)) (hI : FInv A k pix F) {g : Board} (hg : A.stream[id]? = some g)
    (ha : ∀ G, Asked k g G → (q G).map (·.2) = some a) :
    ∃ F', F.ask id q = some (F', a) ∧ FInv A k pix F' ∧ F'.comments = F.comments := by
  obtain ⟨G, g1, g2⟩ := forall₂_get hI.stream hg
  have := ha G g2
  rw [Option.map_eq_some_iff] at this
  obtain ⟨⟨G', a'⟩, h1, h2⟩ := this
  simp only at h2
  subst h2
  have h : F.ask id q = some ({ F with stream := F.stream.set id G' }, a') := by
    unfold ask
    simp [g1, h1]
  exact ⟨_, h, ask_inv c hq hI h⟩

theorem ask_poss (G : GameBoard) : GameBoard.ask G .poss = G.getPoss.map (·.1) := rfl
theorem ask_basicNot (G : GameBoard) : GameBoard.ask G .basicNot = G.getBasicNot.map (·.1) := rfl
theorem ask_basicIs (G : GameBoard) : GameBoard.ask G .basicIs = G.getBasicIs.map (·.1) := rfl
theorem ask_enumNot (G : GameBoard) : GameBoard.ask G .enumNot = G.getEnumNot.map (·.1) := rfl
theorem ask_enumIs (G : GameBoard) : GameBoard.ask G .enumIs = G.getEnumIs.map (·.1) := rfl

theorem sayIf_inv {A : Replay} {k pix i : Nat} {F F' : Feat} {o : Option Comment} (hI : FInv A k pix F)
    (h : F.sayIf i o = some F') : FInv A k pix F' ∧
      ∀ j, F'.comments[j]? = (F.comments[j]?).map fun cs => if j = i then cs ++ o.toList else cs := by
  cases o with
  | none =>
    simp only [sayIf, Option.some.injEq] at h
    subst h
    exact ⟨hI, fun j => by simp⟩
  | some c =>
    simp only [sayIf, say, Option.map_eq_some_iff] at h
    obtain ⟨cs, hcs, rfl⟩ := h
    refine ⟨⟨hI.recs, hI.pixEq, by simpa using hI.len, hI.stream⟩, fun j => ?_⟩
    show (F.comments.set i (cs ++ [c]))[j]? = _
    rw [List.getElem?_set]
    by_cases hji : i = j
    · subst hji
      rw [if_pos rfl, if_pos (List.getElem?_eq_some_iff.mp hcs).1, hcs]
      simp
    · rw [if_neg hji]
      have : ¬ j = i := fun h => hji h.symm
      simp [this]

theorem sayIf_some {A : Replay} {k pix i : Nat} {F : Feat} {o : Option Comment} (hI : FInv A k pix F)
    (hi : i < A.recs.length) : ∃ F', F.sayIf i o = some F' := by
  cases o with
  | none => exact ⟨F, rfl⟩
  | some c =>
    rw [← hI.len] at hi
    simp [sayIf, say, List.getElem?_eq_getElem hi]

theorem foldlM_keeps {σ ι : Type} {f : σ → ι → Option σ} (P : σ → Prop) {l : List ι}
    (hf : ∀ s x s', P s → f s x = some s' → P s') : ∀ {s s' : σ}, P s → l.foldlM (m := Option) f s = some s' → P s' := by
  induction l with
  | nil => intro s s' hs h; simp only [List.foldlM_nil, Option.pure_def, Option.some.injEq] at h; rw [← h]; exact hs
  | cons x l ih =>
    intro s s' hs h
    rw [List.foldlM_cons, Option.bind_eq_bind, Option.bind_eq_some_iff] at h
    obtain ⟨s1, h1, h2⟩ := h
    exact ih (hf s x s1 hs h1) h2

section keep
variable {A : Replay} {k pix : Nat}

theorem possAt_inv {F F' : Feat} {id x y : Nat} {p : Option ℚ} (hI : FInv A k pix F) (h : F.possAt id x y = some (F', p)) :
    FInv A k pix F' ∧ F'.comments = F.comments := by
  unfold possAt at h
  simp only [Option.bind_eq_bind, Option.pure_def, Option.bind_eq_some_iff, Option.some.injEq, Prod.mk.injEq, Prod.exists] at h
  obtain ⟨F1, M, h1, l, -, q, -, rfl, -⟩ := h
  exact ask_inv .poss ask_poss hI h1

theorem onlySecond_inv {F F' : Feat} {id : Nat} {q1 q2 : GameBoard → Option (GameBoard × List Pos)} {p : Pos} {b : Bool}
    (c1 c2 : Ask) (hq1 : ∀ G, GameBoard.ask G c1 = (q1 G).map (·.1)) (hq2 : ∀ G, GameBoard.ask G c2 = (q2 G).map (·.1))
    (hI : FInv A k pix F) (h : F.onlySecond id q1 q2 p = some (F', b)) :
    FInv A k pix F' ∧ F'.comments = F.comments := by
  unfold onlySecond at h
  rw [Option.bind_eq_bind, Option.bind_eq_some_iff] at h
  obtain ⟨⟨F1, l1⟩, h1, h⟩ := h
  have J := ask_inv c1 hq1 hI h1
  simp only at h
  split at h
  · simp only [Option.pure_def, Option.some.injEq, Prod.mk.injEq] at h
    rw [← h.1]; exact J
  · rw [Option.bind_eq_some_iff] at h
    obtain ⟨⟨F2, l2⟩, h2, h⟩ := h
    have J2 := ask_inv c2 hq2 J.1 h2
    simp only [Option.pure_def, Option.some.injEq, Prod.mk.injEq] at h
    rw [← h.1]; exact ⟨J2.1, J2.2.trans J.2⟩

theorem inNeither_inv {F F' : Feat} {id : Nat} {p : Pos} {b : Bool}
    (hI : FInv A k pix F) (h : F.inNeither id p = some (F', b)) :
    FInv A k pix F' ∧ F'.comments = F.comments := by
  unfold inNeither at h
  rw [Option.bind_eq_bind, Option.bind_eq_some_iff] at h
  obtain ⟨⟨F1, l1⟩, h1, h⟩ := h
  have J := ask_inv .basicNot ask_basicNot hI h1
  simp only at h
  split at h
  · simp only [Option.pure_def, Option.some.injEq, Prod.mk.injEq] at h
    rw [← h.1]; exact J
  · rw [Option.bind_eq_some_iff] at h
    obtain ⟨⟨F2, l2⟩, h2, h⟩ := h
    have J2 := ask_inv .enumNot ask_enumNot J.1 h2
    simp only [Option.pure_def, Option.some.injEq, Prod.mk.injEq] at h
    rw [← h.1]; exact ⟨J2.1, J2.2.trans J.2⟩

theorem safeNear_inv {F F' : Feat} {id : Nat} {l : Pos} {b : Bool}
    (hI : FInv A k pix F) (h : F.safeNear id l = some (F', b)) :
    FInv A k pix F' ∧ F'.comments = F.comments := by
  unfold safeNear at h
  simp only [Option.bind_eq_bind, Option.pure_def, Option.bind_eq_some_iff, Option.some.injEq, Prod.mk.injEq, Prod.exists] at h
  obtain ⟨F1, l1, h1, F2, l2, h2, rfl, -⟩ := h
  have J := ask_inv .basicNot ask_basicNot hI h1
  have J2 := ask_inv .enumNot ask_enumNot J.1 h2
  exact ⟨J2.1, J2.2.trans J.2⟩

theorem loop_inv {step : Feat → Nat → Rec → Option Feat} (hs : ∀ F i r F', FInv A k pix F → step F i r = some F' → FInv A k pix F')
    {lo : Nat} {F F' : Feat} (hI : FInv A k pix F) (h : F.loop step lo = some F') : FInv A k pix F' := by
  unfold loop at h
  refine foldlM_keeps (FInv A k pix) (fun s x s' hs' hx => ?_) hI h
  rw [Option.bind_eq_some_iff] at hx
  obtain ⟨r, -, hx⟩ := hx
  exact hs _ _ _ _ hs' hx

theorem run_inv {F F' : Feat} {f : Feature} (hI : FInv A k pix F) (h : F.run dist f = some F') : FInv A k pix F' := by
  cases f with
  | highRiskGuess =>
    refine loop_inv (fun F i r F' hI h => ?_) hI h
    unfold riskyStep at h
    split at h
    · cases h
    split at h
    · rw [Option.bind_eq_some_iff] at h
      obtain ⟨⟨F1, p⟩, h1, h⟩ := h
      exact (sayIf_inv (possAt_inv hI h1).1 h).1
    · simp only [Option.some.injEq] at h; rw [← h]; exact hI
  | jumpJudge =>
    refine loop_inv (fun F i r F' hI h => ?_) hI h
    unfold jumpStep at h
    split at h
    · cases h
    split at h
    · rw [Option.bind_eq_some_iff] at h
      obtain ⟨⟨F1, p⟩, h1, h⟩ := h
      exact (sayIf_inv (onlySecond_inv .basicNot .enumNot ask_basicNot ask_enumNot hI h1).1 h).1
    split at h
    · rw [Option.bind_eq_some_iff] at h
      obtain ⟨⟨F1, p⟩, h1, h⟩ := h
      exact (sayIf_inv (onlySecond_inv .basicIs .enumIs ask_basicIs ask_enumIs hI h1).1 h).1
    · simp only [Option.some.injEq] at h; rw [← h]; exact hI
  | needlessGuess =>
    refine loop_inv (fun F i r F' hI h => ?_) hI h
    unfold needlessStep at h
    split at h
    · split at h
      · cases h
      rw [Option.bind_eq_some_iff] at h
      obtain ⟨⟨F1, p⟩, h1, h⟩ := h
      have J := possAt_inv hI h1
      simp only at h
      split at h
      · rw [Option.bind_eq_some_iff] at h
        obtain ⟨⟨F2, b⟩, h2, h⟩ := h
        exact (sayIf_inv (inNeither_inv J.1 h2).1 h).1
      · simp only [Option.some.injEq] at h; rw [← h]; exact J.1
    · simp only [Option.some.injEq] at h; rw [← h]; exact hI
  | mouseTrace =>
    simp only [run, mouseTrace, Option.bind_eq_bind, Option.pure_def, Option.bind_eq_some_iff, Option.some.injEq] at h
    obtain ⟨r, -, T, h, rfl⟩ := h
    refine foldlM_keeps (fun T : Feat × Trace => FInv A k pix T.1) (fun T i T' hT h => ?_) hI h
    simp only [traceStep, Option.bind_eq_some_iff] at h
    obtain ⟨r, -, h⟩ := h
    split at h
    · rw [Option.map_eq_some_iff] at h
      obtain ⟨F1, h1, rfl⟩ := h
      exact (sayIf_inv hT h1).1
    · simp only [Option.some.injEq] at h; rw [← h]; exact hT
  | visionTransfer =>
    simp only [run, visionTransfer, Option.bind_eq_bind, Option.bind_eq_some_iff] at h
    obtain ⟨r, -, h⟩ := h
    split at h
    · cases h
    simp only [Option.pure_def, Option.bind_eq_some_iff, Option.some.injEq] at h
    obtain ⟨T, h, rfl⟩ := h
    refine foldlM_keeps (fun T : Feat × Look => FInv A k pix T.1) (fun T i T' hT h => ?_) hI h
    simp only [lookStep, Option.bind_eq_some_iff] at h
    obtain ⟨r, -, h⟩ := h
    split at h
    · rw [Option.map_eq_some_iff] at h
      obtain ⟨F1, h1, rfl⟩ := h
      unfold lookSay at h1
      split at h1
      · rw [Option.bind_eq_bind, Option.bind_eq_some_iff] at h1
        obtain ⟨⟨F2, b⟩, h2, h1⟩ := h1
        exact (sayIf_inv (safeNear_inv hT h2).1 h1).1
      · simp only [Option.some.injEq] at h1; rw [← h1]; exact hT
    · simp only [Option.some.injEq] at h; rw [← h]; exact hT
  | survivePoss =>
    simp only [run, survive, Option.bind_eq_bind, Option.bind_eq_some_iff] at h
    obtain ⟨T, h1, h⟩ := h
    have J : FInv A k pix T.1 := by
      refine foldlM_keeps (fun T : Feat × List ℚ × Bool => FInv A k pix T.1) (fun T i T' hT h => ?_) hI h1
      simp only [luckStep, Option.bind_eq_some_iff] at h
      obtain ⟨r, -, h⟩ := h
      split at h
      · split at h
        · simp only [Option.some.injEq] at h; rw [← h]; exact hT
        split at h
        · cases h
        rw [Option.map_eq_some_iff] at h
        obtain ⟨⟨F1, p⟩, h1, rfl⟩ := h
        exact (possAt_inv hT h1).1
      · simp only [Option.some.injEq] at h; rw [← h]; exact hT
    split at h
    · cases h
    simp only [Option.pure_def, Option.some.injEq] at h
    rw [← h]
    exact ⟨J.recs, J.pixEq, by simpa using J.len, J.stream⟩
  | superFLLocal =>
    simp only [run, superFLLocal, Option.bind_eq_bind, Option.pure_def, Option.bind_eq_some_iff, Option.some.injEq] at h
    obtain ⟨T, h, rfl⟩ := h
    refine foldlM_keeps (fun T : Feat × FL => FInv A k pix T.1) (fun T i T' hT h => ?_) hI h
    simp only [flStep, Option.bind_eq_some_iff] at h
    obtain ⟨r, -, h⟩ := h
    split at h
    · simp only [Option.some.injEq] at h; rw [← h]; exact hT
    split at h
    · cases h
    simp only [Option.bind_eq_some_iff] at h
    obtain ⟨q, -, G, -, t, -, h⟩ := h
    split at h
    · cases h
    simp only [flAfter] at h
    generalize FL.enough _ = u at h
    split at h
    · rw [Option.map_eq_some_iff] at h
      obtain ⟨F1, h1, rfl⟩ := h
      exact (sayIf_inv (o := some _) hT h1).1
    · simp only [Option.some.injEq] at h; rw [← h]; exact hT
  | unknown => simp only [run, Option.some.injEq] at h; rw [← h]; exact hI

end keep

theorem start_inv {A : Replay} {k pix : Nat} : FInv A k pix (A.feat k pix) := by
  refine ⟨rfl, rfl, by simp [Replay.feat], ?_⟩
  show List.Forall₂ (Asked k) A.stream (A.stream.map _)
  rw [List.forall₂_map_right_iff]
  exact List.forall₂_same.mpr fun g _ => .set

section exact
variable {v : View} {A : Replay} {k pix : Nat}

open Classical in
theorem possAt_some (h0 : 0 < v.row) (hk : 1 ≤ (mines v).card) {F : Feat} (hI : FInv A (mines v).card pix F) {id : Nat} {g : Board}
    (hg : A.stream[id]? = some g) (ha : Askable v g) (hre : ∀ p, IsNumber (unmark g) p → InReach (unmark g) p) {p : Pos}
    (hp : p ∈ grid v.row v.col) : ∃ F', F.possAt id p.1 p.2 = some (F', some (if g.get p.1 p.2 < 10 then 0 else
        mineShare g (mines v).card p)) ∧ FInv A (mines v).card pix F' ∧ F'.comments = F.comments := by
  obtain ⟨M, m1, m2, m3, m4⟩ := C53_poss g v.row v.col (mines v).card ha.rect h0 ha.shown hk hre ⟨_, ha.mem hre⟩ ha.cons
  obtain ⟨F', f1, f2, f3⟩ := ask_some .poss ask_poss hI hg m4
  have hp' := mem_grid.mp hp
  have hM := m3 p.1 p.2 hp'.1 hp'.2
  have hl1 : p.1 < M.length := by rw [m1]; exact hp'.1
  have hl2 : p.2 < M[p.1].length := by rw [m2 _ (List.getElem_mem _)]; exact hp'.2
  have hM1 : M.getD p.1 [] = M[p.1] := by simp [List.getD_eq_getElem?_getD, hl1]
  rw [hM1] at hM
  have hM2 : M[p.1].getD p.2 none = M[p.1][p.2] := by simp [List.getD_eq_getElem?_getD, hl2]
  rw [hM2] at hM
  refine ⟨F', ?_, f2, f3⟩
  unfold possAt
  simp only [f1, Option.bind_eq_bind, Option.bind_some, Option.pure_def, List.getElem?_eq_getElem hl1,
    List.getElem?_eq_getElem hl2, hM]
  unfold mineShare
  split <;> rfl

/-- the answers of `get_basic_not_mine`, `get_basic_is_mine`, `get_enum_not_mine` -/
structure Lists (k : Nat) (g : Board) (bn bi en : List Pos) : Prop where
  basicNot : ∀ G, Asked k g G → G.getBasicNot.map (·.2) = some bn
  basicIs : ∀ G, Asked k g G → G.getBasicIs.map (·.2) = some bi
  enumNot : ∀ G, Asked k g G → G.getEnumNot.map (·.2) = some en
  enumIs : ∀ G, Asked k g G → G.getEnumIs.map (·.2) = some []
  disj : ∀ p ∈ en, p ∉ bn
  safeB : ∀ p ∈ bn, Frontier (unmark g) p ∧ Certain (unmark g) p false
  safeE : ∀ p ∈ en, Frontier (unmark g) p ∧ Certain (unmark g) p false
  all : FewFrontier (unmark g) → ∀ p, Frontier (unmark g) p → Certain (unmark g) p false → p ∈ bn ∨ p ∈ en

theorem lists (h0 : 0 < v.row) (k : Nat) {g : Board} (ha : Askable v g) : ∃ bn bi en, Lists k g bn bi en := by
  obtain ⟨bn, bi, en, h1, h2, h3, h4, h5, h6⟩ := C53_certain g v.row v.col k ha.rect h0 ha.cons
  exact ⟨bn, bi, en,
    { basicNot := fun G hG => (h6 G hG).2.1, basicIs := fun G hG => (h6 G hG).2.2.1, enumNot := fun G hG => (h6 G hG).2.2.2.1
      enumIs := fun G hG => (h6 G hG).2.2.2.2, disj := fun p hp => (h4 p hp).1, safeB := h2
      safeE := fun p hp => (h4 p hp).2.2, all := h5 }⟩

theorem onlySecond_some {F : Feat} (hI : FInv A k pix F) {id : Nat} {g : Board} (hg : A.stream[id]? = some g)
    {q1 q2 : GameBoard → Option (GameBoard × List Pos)} {l1 l2 : List Pos} {p : Pos}
    (c1 c2 : Ask) (hq1 : ∀ G, GameBoard.ask G c1 = (q1 G).map (·.1)) (hq2 : ∀ G, GameBoard.ask G c2 = (q2 G).map (·.1))
    (h1 : ∀ G, Asked k g G → (q1 G).map (·.2) = some l1) (h2 : ∀ G, Asked k g G → (q2 G).map (·.2) = some l2) :
    ∃ F', F.onlySecond id q1 q2 p = some (F', decide (p ∉ l1 ∧ p ∈ l2)) ∧ FInv A k pix F' ∧ F'.comments = F.comments := by
  obtain ⟨F1, f1, f2, f3⟩ := ask_some c1 hq1 hI hg h1
  obtain ⟨F2, e1, e2, e3⟩ := ask_some c2 hq2 f2 hg h2
  unfold onlySecond
  simp only [f1, Option.bind_eq_bind, Option.bind_some, Option.pure_def]
  by_cases hp : p ∈ l1
  · exact ⟨F1, by simp [hp], f2, f3⟩
  · refine ⟨F2, by simp [hp, e1], e2, e3.trans f3⟩

theorem inNeither_some {F : Feat} (hI : FInv A k pix F) {id : Nat} {g : Board} (hg : A.stream[id]? = some g)
    {bn bi en : List Pos} {p : Pos} (hl : Lists k g bn bi en) :
    ∃ F', F.inNeither id p = some (F', decide (p ∉ bn ∧ p ∉ en)) ∧ FInv A k pix F' ∧ F'.comments = F.comments := by
  obtain ⟨F1, f1, f2, f3⟩ := ask_some .basicNot ask_basicNot hI hg hl.basicNot
  obtain ⟨F2, e1, e2, e3⟩ := ask_some .enumNot ask_enumNot f2 hg hl.enumNot
  unfold inNeither
  simp only [f1, Option.bind_eq_bind, Option.bind_some, Option.pure_def]
  by_cases hp : p ∈ bn
  · exact ⟨F1, by simp [hp], f2, f3⟩
  · refine ⟨F2, by simp [hp, e1], e2, e3.trans f3⟩

theorem safeNear_some {F : Feat} (hI : FInv A k pix F) {id : Nat} {g : Board} (hg : A.stream[id]? = some g)
    {bn bi en : List Pos} {l : Pos} (hl : Lists k g bn bi en) :
    ∃ F', F.safeNear id l = some (F', decide (∃ q ∈ bn ++ en, within3 q l = true)) ∧ FInv A k pix F' ∧
      F'.comments = F.comments := by
  obtain ⟨F1, f1, f2, f3⟩ := ask_some .basicNot ask_basicNot hI hg hl.basicNot
  obtain ⟨F2, e1, e2, e3⟩ := ask_some .enumNot ask_enumNot f2 hg hl.enumNot
  refine ⟨F2, ?_, e2, e3.trans f3⟩
  unfold safeNear
  simp only [f1, e1, Option.bind_eq_bind, Option.bind_some, Option.pure_def, Option.some.injEq, Prod.mk.injEq, true_and]
  rw [Bool.eq_iff_iff]
  simp only [Bool.or_eq_true, List.any_eq_true, decide_eq_true_eq, List.mem_append]
  constructor
  · rintro (⟨q, h1, h2⟩ | ⟨q, h1, h2⟩)
    · exact ⟨q, .inl h1, h2⟩
    · exact ⟨q, .inr h1, h2⟩
  · rintro ⟨q, h1 | h1, h2⟩
    · exact .inl ⟨q, h1, h2⟩
    · exact .inr ⟨q, h1, h2⟩

theorem foldlM_says {f : Nat → Rec → List Comment} {step : Feat → Nat → Rec → Option Feat}
    (hs : ∀ F i r, FInv A k pix F → A.recs[i]? = some r → ∃ F', step F i r = some F' ∧ FInv A k pix F' ∧
      ∀ j, F'.comments[j]? = (F.comments[j]?).map fun cs => if j = i then cs ++ f i r else cs) :
    ∀ (l : List Nat), l.Nodup → (∀ i ∈ l, i < A.recs.length) → ∀ {F : Feat}, FInv A k pix F →
      ∃ F', l.foldlM (m := Option) (fun F i => F.recs[i]?.bind fun r => step F i r) F = some F' ∧ FInv A k pix F' ∧
        ∀ j r, A.recs[j]? = some r → F'.comments[j]? = (F.comments[j]?).map fun cs => if j ∈ l then cs ++ f j r else cs
  | [], _, _, F, hI => ⟨F, rfl, hI, fun j r _ => by simp⟩
  | i :: l, hnd, hlt, F, hI => by
    rw [List.nodup_cons] at hnd
    have hi := hlt i (by simp)
    have hr := List.getElem?_eq_getElem hi
    obtain ⟨F1, f1, f2, f3⟩ := hs F i _ hI hr
    obtain ⟨F2, e1, e2, e3⟩ := foldlM_says hs l hnd.2 (fun j hj => hlt j (by simp [hj])) f2
    refine ⟨F2, ?_, e2, fun j r hj => ?_⟩
    · rw [List.foldlM_cons, hI.recs, hr, Option.bind_some, f1, Option.bind_eq_bind, Option.bind_some]
      exact e1
    · rw [e3 j r hj, f3 j, Option.map_map]
      congr 1
      funext cs
      simp only [Function.comp]
      by_cases hji : j = i
      · subst hji
        rw [if_pos rfl, if_neg hnd.1, if_pos (by simp)]
        rw [hj, Option.some.injEq] at hr
        rw [hr]
      · rw [if_neg hji]
        simp [hji]

theorem loop_says {f : Nat → Rec → List Comment} {step : Feat → Nat → Rec → Option Feat}
    (hs : ∀ F i r, FInv A k pix F → A.recs[i]? = some r → ∃ F', step F i r = some F' ∧ FInv A k pix F' ∧
      ∀ j, F'.comments[j]? = (F.comments[j]?).map fun cs => if j = i then cs ++ f i r else cs) {lo : Nat} {F : Feat}
    (hI : FInv A k pix F) : ∃ F', F.loop step lo = some F' ∧ FInv A k pix F' ∧
        ∀ j r cs, A.recs[j]? = some r → F.comments[j]? = some cs →
          F'.comments[j]? = some (cs ++ if lo ≤ j then f j r else []) := by
  obtain ⟨F', h1, h2, h3⟩ := foldlM_says hs (rng lo F.recs.length) (List.nodup_range' (step := 1)) (fun i hi => by
    rw [mem_rng, hI.recs] at hi; exact hi.2) hI
  refine ⟨F', h1, h2, fun j r cs hr hcs => ?_⟩
  rw [h3 j r hr, hcs, Option.map_some]
  have := (List.getElem?_eq_some_iff.mp hr).1
  by_cases hlo : lo ≤ j
  · rw [if_pos (mem_rng.mpr ⟨hlo, by rw [hI.recs]; exact this⟩), if_pos hlo]
  · rw [if_neg (fun h => hlo (mem_rng.mp h).1), if_neg hlo, List.append_nil]

/-- a loop `for i in 0..n` with an invariant -/
theorem foldlM_rng {σ : Type} {f : σ → Nat → Option σ} (lo : Nat) (Q : Nat → σ → Prop) : ∀ (n : Nat) {s : σ},
    Q lo s → (∀ i s, lo ≤ i → i < lo + n → Q i s → ∃ s', f s i = some s' ∧ Q (i + 1) s') →
    ∃ s', (rng lo (lo + n)).foldlM (m := Option) f s = some s' ∧ Q (lo + n) s'
  | 0, s, h0, _ => ⟨s, by simp [rng], h0⟩
  | n + 1, s, h0, hs => by
    obtain ⟨s1, e1, e2⟩ := foldlM_rng lo Q n h0 fun i s h1 h2 => hs i s h1 (by omega)
    obtain ⟨s2, d1, d2⟩ := hs (lo + n) s1 (by omega) (by omega) e2
    refine ⟨s2, ?_, d2⟩
    have : rng lo (lo + (n + 1)) = rng lo (lo + n) ++ [lo + n] := by
      unfold rng
      rw [show lo + (n + 1) - lo = n + 1 by omega, show lo + n - lo = n by omega, List.range'_concat]
      simp
    rw [this, List.foldlM_append, e1]
    simp [d1]

/-! ### comments on consecutive marked events -/

/-- what has been said about the pairs of consecutive marked events ending before `i`; `c` is the last one -/
structure Pairs (mk : Nat → Prop) (said : Nat → Nat → List Comment) (F0 F : Feat) (c i : Nat) : Prop where
  start : c = 0 ∨ mk c
  lt : c < i ∨ (c = 0 ∧ i = 0)
  gap : ∀ l, c < l → l < i → ¬ mk l
  pair : ∀ j m, m < i → Consecutive mk j m → F.comments[j]? = (F0.comments[j]?).map (· ++ said j m)
  other : ∀ j, (∀ m, m < i → ¬ Consecutive mk j m) → F.comments[j]? = F0.comments[j]?

theorem Pairs.zero {mk : Nat → Prop} {said : Nat → Nat → List Comment} {F0 : Feat} : Pairs mk said F0 F0 0 0 :=
  ⟨.inl rfl, .inr ⟨rfl, rfl⟩, fun l h1 h2 => by omega, fun j m h => by omega, fun j _ => rfl⟩

theorem Pairs.skip {mk : Nat → Prop} {said : Nat → Nat → List Comment} {F0 F : Feat} {c i : Nat} (h : Pairs mk said F0 F c i)
    (hi : ¬ mk i) : Pairs mk said F0 F c (i + 1) := by
  refine ⟨h.start, ?_, fun l h1 h2 => ?_, fun j m hm hc => ?_, fun j hj => h.other j fun m hm => hj m (by omega)⟩
  · rcases h.lt with h1 | h1 <;> left <;> omega
  · rcases Nat.lt_succ_iff_lt_or_eq.mp h2 with h3 | rfl
    · exact h.gap l h1 h3
    · exact hi
  · refine h.pair j m ?_ hc
    rcases Nat.lt_succ_iff_lt_or_eq.mp hm with h3 | rfl
    · exact h3
    · exact absurd hc.2.2.1 hi

theorem Pairs.hit {mk : Nat → Prop} {said : Nat → Nat → List Comment} {F0 F F' : Feat} {c i : Nat} (h : Pairs mk said F0 F c i)
    (hi : mk i) (h00 : said 0 0 = [])
    (hF : ∀ j, F'.comments[j]? = (F.comments[j]?).map fun cs => if j = c then cs ++ said c i else cs) :
    Pairs mk said F0 F' i (i + 1) := by
  have huniq : ∀ j, Consecutive mk j i → j = c := by
    rintro j ⟨h1, h2, -, h4⟩
    by_contra hne
    rcases Nat.lt_or_gt_of_ne hne with h5 | h5
    · rcases h.start with h6 | h6
      · omega
      · refine h4 c h5 ?_ h6
        rcases h.lt with h7 | h7 <;> omega
    · rcases h1 with h1 | h1
      · omega
      · exact h.gap j h5 h2 h1
  refine ⟨.inr hi, .inl (Nat.lt_succ_self i), fun l h1 h2 => by omega, fun j m hm hc => ?_, fun j hj => ?_⟩
  · rcases Nat.lt_succ_iff_lt_or_eq.mp hm with h3 | rfl
    · rw [hF, h.pair j m h3 hc, Option.map_map]
      have : j ≠ c := by
        rintro rfl
        rcases h.lt with h4 | h4
        · exact h.gap m hc.2.1 h3 hc.2.2.1
        · omega
      congr 1
      funext cs
      simp [this]
    · have := huniq j hc
      subst this
      rw [hF, h.other j]
      · simp
      · intro m' hm' hc'
        exact hc.2.2.2 m' hc'.2.1 hm' hc'.2.2.1
  · have h1 := h.other j fun m hm => hj m (by omega)
    rw [hF, h1]
    by_cases hjc : j = c
    · subst hjc
      rcases h.lt with h4 | h4
      · exact absurd ⟨h.start, h4, hi, fun l h1 h2 => h.gap l h1 h2⟩ (hj i (by omega))
      · rw [h4.1, h4.2, h00]; simp
    · simp [hjc]

end exact

end Feat

theorem Spec.Annotated.inv {A : Replay} {k pix : Nat} {F : Feat} (h : Annotated dist A k pix F) : Feat.FInv A k pix F := by
  induction h with
  | start => exact Feat.start_inv
  | run _ hr ih => exact Feat.run_inv ih hr

end Ms
