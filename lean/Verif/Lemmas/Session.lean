import Verif.SpecVideo
import Verif.Lemmas.Video

/-! # Invariants of a recording session -/

namespace Ms
open Spec MSB

/-- the level of a step before the game has begun -/
theorem MSB.step_level {s s' : MSB} {e : Ev} {p : Pos} {a : Nat} (h : s.GInv)
    (hs : s.step e p = some (s', some a)) (hst : s.state = .ready ∨ s.state = .preFlaging) :
    (s'.state = .ready ∧ a = 0) ∨ (s'.state = .preFlaging ∧ a ≤ 1) ∨ (s'.state = .playing ∧ a = 2) ∨
    (s'.state = .win ∧ a = 2) ∨ (s'.state = .loss ∧ a = 0) := by
  have he := MSB.step_eff hs
  have hnp : s.state ≠ .playing := by rcases hst with h | h <;> simp [h]
  have key : ∀ t : MSB, t.state = .playing → (t.checkWin.state = .ready ∧ 2 = 0) ∨
      (t.checkWin.state = .preFlaging ∧ 2 ≤ 1) ∨ (t.checkWin.state = .playing ∧ 2 = 2) ∨
      (t.checkWin.state = .win ∧ 2 = 2) ∨ (t.checkWin.state = .loss ∧ 2 = 0) := by
    intro t ht
    rcases checkWin_state t with h1 | h1
    · exact .inr (.inr (.inr (.inl ⟨h1, rfl⟩)))
    · exact .inr (.inr (.inl ⟨h1.trans ht, rfl⟩))
  generalize hr : (some a : Option Nat) = r at he
  cases he with
  | idle m mh _ h1 _ =>
    subst hr
    have : a = 0 := by simpa using h1
    subst this
    rcases hst with h | h <;> simp [h]
  | start => simp only [Option.some.injEq] at hr; simp [hr]
  | back => simp only [Option.some.injEq] at hr; simp [hr]
  | backClear => simp only [Option.some.injEq] at hr; exact .inl ⟨rfl, hr⟩
  | unflagLast => simp only [Option.some.injEq] at hr; simp [hr]
  | preFlag m k _ _ hst' _ hp hk h10 hc =>
    obtain ⟨-, -, e2⟩ := right_eff h (by rcases hst' with h | h <;> simp [h]) (by simp) hc
    cases e2 <;> simp only [Option.some.injEq] at hr <;> simp [hr]
  | preUnflag m k _ _ hst' _ hp hk hk' h10 hc =>
    obtain ⟨-, -, e2⟩ := right_eff (st := s.state) h (by simp [hst']) (by simp [hst']) hc
    cases e2 <;> simp only [Option.some.injEq] at hr <;> simp [hr, hst']
  | right m _ _ hst' _ hp hc => exact absurd hst' hnp
  | left m _ _ hst' _ _ hc =>
    obtain ⟨-, -, e2⟩ := left_eff h hst' hc
    rcases hst' with h' | ⟨h', h10⟩
    · exact absurd h' hnp
    cases e2 with
    | none hg => exact absurd h10 hg
    | mine _ _ _ => simp only [Option.some.injEq] at hr; simp [hr]
    | safe _ _ _ =>
      simp only [Option.some.injEq] at hr
      subst hr
      exact key _ rfl
  | chord m mh dec _ _ hst' hm hm' hc =>
    obtain ⟨hp, -, e2⟩ := chord_eff h hc
    cases e2 with
    | none _ => simp only [Option.some.injEq] at hr; rcases hst with h | h <;> simp [h, hr]
    | opens hch _ _ =>
      exfalso
      have := (h.pre hst).1 p hp
      have h2 := hch
      unfold MSB.Chordable at h2
      simp only [MSB.gb] at h2 this
      omega
  | miss => simp only [Option.some.injEq] at hr; rcases hst with h | h <;> simp [h, hr]

/-- recorded events, number of boards of the stream, time of the last event -/
inductive Timeline : List Rec → Nat → Nat → Prop
  | nil : Timeline [] 1 0
  | snoc {rs : List Rec} {n t : Nat} {r : Rec} : Timeline rs n t → 1 ≤ n → t ≤ r.time → r.prior = n - 1 →
      r.next = (if r.useful ≥ 1 then n else n - 1) →
      Timeline (rs ++ [r]) (if r.useful ≥ 1 then n + 1 else n) r.time

namespace Live
variable {dist : Pos → Pos → ℚ}

/-- What always holds of a recording, `t` being the clock -/
structure LInv (t : Nat) (L : Live) : Prop where
  reach : Reach L.msb
  wait : L.msb.Waiting
  gst : L.gstate = L.msb.state
  hrow : L.height = L.msb.row
  hcol : L.width = L.msb.column
  ready : L.msb.state = .ready → L.recs = [] ∧ L.stream = []
  pix : L.msb.state ≠ .ready → 0 < L.pix
  head : L.msb.state ≠ .ready → ∃ r, L.recs.head? = some r ∧ OnBoard L r ∧ r.time = 0
  first : L.msb.state ≠ .ready → L.stream.head? = some (coveredBoard L.height L.width)
  line : L.msb.state ≠ .ready → ∃ u, Timeline L.recs L.stream.length u ∧ u ≤ timeMsBetween t L.videoStart
  shows : L.msb.state ≠ .ready → L.msb.state ≠ .loss → L.stream.getLast? = some L.msb.gameBoard
  pre : L.msb.state = .preFlaging → ∀ r ∈ L.recs, r.useful ≤ 1
  start : L.msb.state = .playing → ∃ l r l', L.recs = l ++ r :: l' ∧ (∀ q ∈ l, q.useful ≤ 1) ∧ r.useful = 2 ∧
    r.time = L.gameStart
  fin : L.msb.state = .win ∨ L.msb.state = .loss → ∃ l r, L.recs = l ++ [r] ∧
    (r.useful = 0 → L.msb.state = .loss) ∧
    (r.useful ≠ 0 → L.stream.getLast? = some L.msb.gameBoard) ∧
    ((∃ l1 r1 l2, l = l1 ++ r1 :: l2 ∧ (∀ q ∈ l1, q.useful ≤ 1) ∧ r1.useful = 2 ∧
        L.rtimeMs + r1.time = r.time) ∨
     ((∀ q ∈ l, q.useful ≤ 1) ∧ (L.msb.state = .win ↔ r.useful = 2) ∧ (L.msb.state = .loss ↔ r.useful = 0) ∧
        L.rtimeMs + L.gameStart = r.time))
  done : L.msb.state = .win → L.completed = true
  lost : L.msb.state = .loss → L.completed = false

theorem LInv.stream_ne {t : Nat} {L : Live} (h : LInv t L) (hs : L.msb.state ≠ .ready) : L.stream ≠ [] := by
  intro he
  have := h.first hs
  simp [he] at this

theorem LInv.mono {t t' : Nat} {L : Live} (h : LInv t L) (hle : t ≤ t') : LInv t' L := by
  refine { h with line := fun hs => ?_ }
  obtain ⟨u, h1, h2⟩ := h.line hs
  exact ⟨u, h1, le_trans h2 (by unfold timeMsBetween; omega)⟩

theorem reach_new_zero {row column : Nat} : Reach (MSB.new (Board.build row column fun _ _ => 0).view) :=
  .new (zero_numbered _ _)

theorem fresh_inv {t : Nat} {L : Live} (h1 : Reach L.msb) (h2 : L.msb.Waiting) (h3 : L.gstate = .ready)
    (h4 : L.msb.state = .ready) (h5 : L.height = L.msb.row) (h6 : L.width = L.msb.column) (h7 : L.recs = [])
    (h8 : L.stream = []) : LInv t L where
  reach := h1
  wait := h2
  gst := by rw [h3, h4]
  hrow := h5
  hcol := h6
  ready := fun _ => ⟨h7, h8⟩
  pix := fun h => absurd h4 h
  head := fun h => absurd h4 h
  first := fun h => absurd h4 h
  line := fun h => absurd h4 h
  shows := fun h => absurd h4 h
  pre := fun h => by rw [h4] at h; cases h
  start := fun h => by rw [h4] at h; cases h
  fin := fun h => by rw [h4] at h; rcases h with h | h <;> cases h
  done := fun h => by rw [h4] at h; cases h
  lost := fun h => by rw [h4] at h; cases h

theorem covered_ready {s : MSB} (h : s.GInv) (hst : s.state = .ready) : s.gameBoard = coveredBoard s.row s.column := by
  refine rect_ext h.core.rect (rect_build _ _ _) fun p hp => ?_
  have h1 := h.ready hst p hp
  rw [mem_grid] at hp
  have h2 : bval (coveredBoard s.row s.column) p = 10 := get_build _ hp.1 hp.2
  rw [h2]; exact h1

theorem step_inv {t now : Nat} {L L' : Live} {e : Ev} {pos : Pos} {ok : Bool} (h : LInv t L) (hle : t ≤ now)
    (he : e ≠ .pf) (h1 : pos.1 < 65536) (h2 : pos.2 < 65536) (hs : L.step dist now e pos = some (L', ok)) :
    LInv now L' := by
  have hg := h.reach.inv
  have hnow := h.mono hle
  have eff := step_eff hg (fun hp => h.stream_ne (by simp [hp])) hs
  cases eff with
  | over _ => exact hnow
  | refused m hm =>
    have : m = L.msb := MSB.step_err hg hm
    subst this
    exact hnow
  | back m a hm hr =>
    have hf := (MSB.step_eff hm).frame hg
    exact fresh_inv (.step h.reach hm) (step_waiting hg h.wait hm) hr hr (h.hrow.trans hf.2.1.symm)
      (h.hcol.trans hf.2.2.symm) rfl rfl
  | saved m a path hm hr ho hp ht =>
    have hf := (MSB.step_eff hm).frame hg
    have hr' : Reach m := .step h.reach hm
    have hg' := hr'.inv
    have hS : L.newStream m a ≠ [] := by unfold newStream; split <;> simp_all
    have hinr : L.msb.state = .ready → OnBoard L (L.newRec (L.newStream m a) m a (L.stamp now) e pos path) ∧ 0 < L.pix := by
      intro hready
      have hin := (step_start hg h.wait hready he hm hr).2.1
      rw [mem_grid, ← h.hrow, ← h.hcol] at hin
      have hpix : 0 < L.pix := by
        rcases Nat.eq_zero_or_pos L.pix with h0 | h0
        · unfold Live.step at hs
          simp [h0, hready] at hs
        · exact h0
      refine ⟨⟨?_, ?_⟩, hpix⟩
      · show pos.1 % 65536 < L.height * L.pix
        rw [Nat.mod_eq_of_lt h1]
        exact (Nat.div_lt_iff_lt_mul hpix).mp hin.1
      · show pos.2 % 65536 < L.width * L.pix
        rw [Nat.mod_eq_of_lt h2]
        exact (Nat.div_lt_iff_lt_mul hpix).mp hin.2
    have hline : ∃ u, Timeline L.recs (if L.stream = [] then 1 else L.stream.length) u ∧ u ≤ L.stamp now := by
      by_cases hready : L.msb.state = .ready
      · rw [(h.ready hready).1, (h.ready hready).2]
        exact ⟨0, by simpa using Timeline.nil, Nat.zero_le _⟩
      · rw [if_neg (h.stream_ne hready)]
        obtain ⟨u, e1, e2⟩ := hnow.line hready
        exact ⟨u, e1, by unfold stamp; rw [if_neg hready]; exact e2⟩
    have hlast : ∀ r, L.stream ≠ [] → L.stream.getLast? = r →
        (if L.stream = [] then [coveredBoard L.height L.width] else L.stream).getLast? = r := by
      intro r e1 e2; rw [if_neg e1]; exact e2
    refine
      { reach := hr'
        wait := step_waiting hg h.wait hm
        gst := rfl
        hrow := h.hrow.trans hf.2.1.symm
        hcol := h.hcol.trans hf.2.2.symm
        ready := fun x => absurd x hr
        pix := ?_, head := ?_, first := ?_, line := ?_, shows := ?_, pre := ?_, start := ?_, fin := ?_
        done := ?_, lost := ?_ }
    · intro _
      by_cases hready : L.msb.state = .ready
      · exact (hinr hready).2
      · exact h.pix hready
    · intro _
      by_cases hready : L.msb.state = .ready
      · refine ⟨L.newRec (L.newStream m a) m a (L.stamp now) e pos path, ?_, (hinr hready).1, ?_⟩
        · simp [recorded, (h.ready hready).1]
        · simp [newRec, stamp, hready]
      · obtain ⟨r, e1, e2, e3⟩ := h.head hready
        refine ⟨r, ?_, e2, e3⟩
        simp [recorded, e1]
    · intro _
      show (L.newStream m a).head? = some (coveredBoard L.height L.width)
      by_cases hready : L.msb.state = .ready
      · simp [newStream, (h.ready hready).2]
      · have := h.first hready
        rw [newStream, if_neg (h.stream_ne hready), List.head?_append, this]
        rfl
    · intro _
      obtain ⟨u, e1, e2⟩ := hline
      refine ⟨L.stamp now, ?_, ?_⟩
      · have hn : 1 ≤ (if L.stream = [] then 1 else L.stream.length) := by
          split
          · exact le_refl _
          · rename_i hne; exact List.length_pos_iff.mpr hne
        have hlen : (L.newStream m a).length = (if a ≥ 1 then (if L.stream = [] then 1 else L.stream.length) + 1
            else (if L.stream = [] then 1 else L.stream.length)) := by
          unfold newStream
          by_cases ha : a ≥ 1
          · simp only [if_pos ha]; split <;> simp
          · simp only [if_neg ha]; split <;> simp
        have := Timeline.snoc (r := L.newRec (L.newStream m a) m a (L.stamp now) e pos path) e1 hn e2 (by
            show (L.newStream m a).length - (if a ≥ 1 then 2 else 1) = _
            rw [hlen]; split <;> simp) (by
            show (L.newStream m a).length - 1 = (if a ≥ 1 then _ else _)
            rw [hlen]; split <;> simp)
        have h' : (if (L.newRec (L.newStream m a) m a (L.stamp now) e pos path).useful ≥ 1 then
            (if L.stream = [] then 1 else L.stream.length) + 1 else (if L.stream = [] then 1 else L.stream.length)) =
            (L.newStream m a).length := hlen.symm
        rw [h'] at this
        exact this
      · show L.stamp now ≤ timeMsBetween now (if L.msb.state = .ready then now else L.videoStart)
        unfold stamp; split
        · exact Nat.zero_le _
        · exact le_refl _
    · intro _ hl
      show (L.newStream m a).getLast? = some m.gameBoard
      unfold newStream
      by_cases ha : a ≥ 1
      · rw [if_pos ha]; simp
      · have ha0 : a = 0 := by omega
        subst ha0
        have hsame := MSB.step_idle hg hm hr hl
        rw [if_neg ha, List.append_nil, hsame]
        by_cases hready : L.msb.state = .ready
        · rw [if_pos (h.ready hready).2, covered_ready hg hready, ← h.hrow, ← h.hcol]
          rfl
        · rw [if_neg (h.stream_ne hready)]
          exact h.shows hready (by rcases ho with h | h | h <;> simp [h])
    · intro hpre
      have hm1 : m.state = .preFlaging := hpre
      have hold : L.msb.state = .ready ∨ L.msb.state = .preFlaging := by
        rcases ho with h | h | h
        · exact .inl h
        · exact .inr h
        · have := (MSB.step_state hg hm).2.1 h
          rw [hm1] at this; simp at this
      have ha : a ≤ 1 := by
        have := MSB.step_level hg hm hold
        rw [hm1] at this; simpa using this
      intro r hr
      have hr1 : r ∈ L.recs ++ [L.newRec (L.newStream m a) m a (L.stamp now) e pos path] := hr
      rw [List.mem_append, List.mem_singleton] at hr1
      rcases hr1 with hr1 | rfl
      · rcases hold with h' | h'
        · rw [(h.ready h').1] at hr1; simp at hr1
        · exact h.pre h' r hr1
      · exact ha
    · intro hpl
      have hm1 : m.state = .playing := hpl
      rcases ho with h' | h' | h'
      · have := (MSB.step_state hg hm).1 h'
        rw [hm1] at this; simp at this
      · refine ⟨L.recs, L.newRec (L.newStream m a) m a (L.stamp now) e pos path, [], rfl, h.pre h', ?_, ?_⟩
        · have := MSB.step_level hg hm (.inr h')
          rw [hm1] at this
          show a = 2
          simpa using this
        · simp [recorded, newRec, hm1, h']
      · obtain ⟨l, r, l', e1, e2, e3, e4⟩ := h.start h'
        refine ⟨l, r, l' ++ [L.newRec (L.newStream m a) m a (L.stamp now) e pos path], ?_, e2, e3, ?_⟩
        · simp [recorded, e1]
        · simp [recorded, h', e4]
    · intro hfin
      have hm1 : m.state = .win ∨ m.state = .loss := hfin
      refine ⟨L.recs, L.newRec (L.newStream m a) m a (L.stamp now) e pos path, rfl, ?_, ?_, ?_⟩
      · intro ha0
        have ha0 : a = 0 := ha0
        subst ha0
        rcases hm1 with hw | hl
        · exfalso
          -- winning takes a step that opens a cell
          have hsame := MSB.step_idle hg hm hr (by simp [hw])
          rcases ho with h' | h' | h'
          · have := (MSB.step_state hg hm).1 h'
            rw [hw] at this; simp at this
          · have := MSB.step_level hg hm (.inr h')
            rw [hw] at this; simp at this
          · obtain ⟨p, hp, hb, hne⟩ := hg.playing h'
            have := hg'.win hw p (by rw [hf.2.1, hf.2.2]; exact hp) (by unfold MSB.bd at hb ⊢; rw [hf.1]; exact hb)
            apply hne
            unfold MSB.gb MSB.bd at this ⊢
            rw [hsame, hf.1] at this
            exact this
        · exact hl
      · intro ha0
        have ha0 : a ≠ 0 := ha0
        show (L.newStream m a).getLast? = some m.gameBoard
        unfold newStream
        have ha1 : a ≥ 1 := Nat.one_le_iff_ne_zero.mpr ha0
        rw [if_pos ha1]; simp
      · rcases ho with h' | h' | h'
        · have := (MSB.step_state hg hm).1 h'
          rcases hm1 with x | x <;> rw [x] at this <;> simp at this
        · have hlv := MSB.step_level hg hm (.inr h')
          refine .inr ⟨h.pre h', ?_, ?_, ?_⟩
          · show m.state = .win ↔ a = 2
            rcases hm1 with x | x <;> rw [x] at hlv ⊢ <;> simp at hlv ⊢ <;> omega
          · show m.state = .loss ↔ a = 0
            rcases hm1 with x | x <;> rw [x] at hlv ⊢ <;> simp at hlv ⊢ <;> omega
          · have hgs : L.gameStart ≤ L.stamp now := ht hm1
            have e1 : (L.recorded now e pos m a path).rtimeMs = L.stamp now - L.gameStart := by
              simp only [recorded, if_pos hm1]
            have e2 : (L.recorded now e pos m a path).gameStart = L.gameStart := by
              simp only [recorded]
              rw [if_neg]
              rintro ⟨x, -⟩
              rcases hm1 with y | y <;> rw [y] at x <;> cases x
            rw [e1, e2]
            show L.stamp now - L.gameStart + L.gameStart = L.stamp now
            omega
        · obtain ⟨l, r, l', e1, e2, e3, e4⟩ := h.start h'
          refine .inl ⟨l, r, l', e1, e2, e3, ?_⟩
          have hgs : L.gameStart ≤ L.stamp now := ht hm1
          have e5 : (L.recorded now e pos m a path).rtimeMs = L.stamp now - L.gameStart := by
            simp only [recorded, if_pos hm1]
          rw [e5, e4]
          show L.stamp now - L.gameStart + L.gameStart = L.stamp now
          omega
    · intro hw
      have hw : m.state = .win := hw
      simp [recorded, hw]
    · intro hw
      have hw : m.state = .loss := hw
      simp [recorded, hw]

theorem setBoard_eq {L L' : Live} {v : View} (h : L.setBoard v = (L', true)) :
    L.width = v.col ∧ L.height = v.row ∧ L' = { L with board := v, msb := { L.msb with board := v } } := by
  unfold setBoard at h
  have key : (if L.width ≠ v.col ∨ L.height ≠ v.row then (L, false)
      else ({ L with height := v.row, width := v.col, board := v, msb := { L.msb with board := v } }, true)) =
      (L', true) → L.width = v.col ∧ L.height = v.row ∧
        L' = { L with board := v, msb := { L.msb with board := v } } := by
    intro h
    split at h
    · simp at h
    · rename_i hd
      push Not at hd
      simp only [Prod.mk.injEq, and_true] at h
      refine ⟨hd.1, hd.2, ?_⟩
      rw [← h, ← hd.1, ← hd.2]
  split at h
  · exact key h
  · exact key h
  · exact key h
  · simp at h

theorem setBoard_inv {t : Nat} {L L' : Live} {v : View} (h : LInv t L) (hv : Numbered v)
    (hst : L.gstate = .ready ∨ L.gstate = .preFlaging) (hs : L.setBoard v = (L', true)) : LInv t L' := by
  obtain ⟨h1, h2, rfl⟩ := setBoard_eq hs
  have hst' : L.msb.state = .ready ∨ L.msb.state = .preFlaging := by rw [← h.gst]; exact hst
  exact
    { reach := .load h.reach hst' hv (h2.symm.trans h.hrow) (h1.symm.trans h.hcol)
      wait := h.wait.load v
      gst := h.gst, hrow := h.hrow, hcol := h.hcol, ready := h.ready, pix := h.pix, head := h.head
      first := h.first, line := h.line, shows := h.shows, pre := h.pre, start := h.start, fin := h.fin
      done := h.done, lost := h.lost }

theorem reset_inv {t : Nat} {L : Live} {row column pix : Nat} (h0 : 0 < row) : LInv t (L.reset row column pix) := by
  refine fresh_inv (reach_new_zero) (new_waiting _) rfl rfl ?_ ?_ rfl rfl
  · show row = _
    exact (rect_build row column fun _ _ => 0).row_eq.symm
  · show column = _
    exact ((rect_build row column fun _ _ => 0).col_eq h0).symm

end Live

theorem Spec.Session.linv {dist : Pos → Pos → ℚ} {b : Bool} {t : Nat} {L : Live} (h : Session dist b t L) :
    Live.LInv t L := by
  induction h with
  | new hv => exact Live.fresh_inv (.new hv) (new_waiting _) rfl rfl rfl rfl rfl rfl
  | step _ hle he h1 h2 hs ih => exact Live.step_inv ih hle he h1 h2 hs
  | board _ hv hst hs ih => exact Live.setBoard_inv ih hv hst hs
  | fresh _ _ ih => exact ih
  | reset _ h0 _ => exact Live.reset_inv h0
  | pix _ hst ih =>
    have hr := ih.gst.symm.trans hst
    unfold Live.setPix
    split
    · exact ih
    · exact Live.fresh_inv ih.reach ih.wait hst hr ih.hrow ih.hcol (ih.ready hr).1 (ih.ready hr).2

end Ms
