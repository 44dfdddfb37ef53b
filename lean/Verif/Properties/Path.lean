import Verif.Properties.Stats

/-! # C59 `get_path`, `get_mouse_state` -/

namespace Ms.Spec

/-- the event lies beyond the board in both directions -/
def Beyond (h w pix : Nat) (r : Rec) : Prop := h * pix ≤ r.y ∧ w * pix ≤ r.x

/-- How the way of the mouse at event `i` of `recs`, which leads to the game `m`, follows from earlier events. -/
structure WayRule (dist : Pos → Pos → ℚ) (h w pix : Nat) (m : MSB) (recs : List Rec) (i : Nat) (r : Rec) : Prop where
  /-- nothing until the first cell is opened -/
  before : m.state = .ready ∨ m.state = .preFlaging → r.path = 0
  /-- beyond the board in both directions: the way of the event before -/
  off : m.state = .playing ∨ m.state = .win ∨ m.state = .loss → Beyond h w pix r →
    ∃ j q, i = j + 1 ∧ recs[j]? = some q ∧ r.path = q.path
  /-- otherwise: the way of the latest event not beyond the board, and the distance from there -/
  on : m.state = .playing ∨ m.state = .win ∨ m.state = .loss → ¬ Beyond h w pix r →
    ∃ j q, j < i ∧ recs[j]? = some q ∧ ¬ Beyond h w pix q ∧
      (∀ k q', j < k → k < i → recs[k]? = some q' → Beyond h w pix q') ∧ r.path = q.path + dist (q.y, q.x) (r.y, r.x)

end Ms.Spec

namespace Ms.Properties
open Ms Ms.Spec
variable {dist : Pos → Pos → ℚ}

theorem next_path {h w pix : Nat} {A A' : Replay} {r : RawEv} (hn : A.next dist h w pix r = some A') :
    ∃ q, A'.recs = A.recs ++ [q] ∧ replayPath dist h w pix A'.msb.state A.recs r = some q.path ∧ q.y = r.y ∧ q.x = r.x := by
  unfold Replay.next at hn
  simp only at hn
  by_cases hmv : r.ev = .mv
  · rw [if_pos hmv, Option.map_eq_some_iff] at hn
    obtain ⟨path, hp, rfl⟩ := hn
    exact ⟨_, rfl, hp, rfl, rfl⟩
  · rw [if_neg hmv] at hn
    split at hn
    · cases hn
    · cases hs : A.msb.step r.ev (r.y / pix, r.x / pix) with
      | none => rw [hs] at hn; cases hn
      | some x =>
        rcases x with ⟨m, _ | a⟩
        · rw [hs] at hn; cases hn
        · rw [hs] at hn
          simp only at hn
          split at hn
          · rw [Option.map_eq_some_iff] at hn
            obtain ⟨path, hp, rfl⟩ := hn
            exact ⟨_, rfl, hp, rfl, rfl⟩
          · rw [Option.map_eq_some_iff] at hn
            obtain ⟨path, hp, rfl⟩ := hn
            exact ⟨_, rfl, hp, rfl, rfl⟩

theorem offBoth_iff {h w pix : Nat} (hh : h < 65536) (hw : w < 65536) (r : Rec) :
    offBoth (h % 65536) (w % 65536) pix r.y r.x = true ↔ Beyond h w pix r := by
  unfold offBoth Beyond
  rw [Nat.mod_eq_of_lt hh, Nat.mod_eq_of_lt hw]
  simp

/-- The way at every event of an analysed video follows the rule. -/
theorem analyse_way {v : View} {h w pix : Nat} (hv : Numbered v) (hh : h < 65536) (hw : w < 65536) :
    ∀ {evs : List RawEv} {A : Replay}, analyse dist v h w pix evs = some A → ∀ i r, A.recs[i]? = some r →
      ∃ m, play pix v (evs.take (i + 1)) = some m ∧ WayRule dist h w pix m A.recs i r := by
  intro evs
  induction evs using List.reverseRecOn with
  | nil =>
    intro A hA i r hr
    simp only [analyse, List.foldlM_nil, Option.pure_def, Option.some.injEq] at hA
    subst hA
    simp at hr
  | append_singleton evs e ih =>
    intro A' hA i r hr
    have I' := analyse_inv hv hA
    rw [analyse_snoc, Option.bind_eq_some_iff] at hA
    obtain ⟨A, hA, hn⟩ := hA
    have I := analyse_inv hv hA
    have hlen : A.recs.length = evs.length := by rw [← I.raw]; simp
    obtain ⟨q, n1, n2, n3, n4⟩ := next_path hn
    rw [n1] at hr ⊢
    have hold : ∀ j : Nat, j < A.recs.length → (A.recs ++ [q])[j]? = A.recs[j]? := fun j hj => List.getElem?_append_left hj
    by_cases hi : i < A.recs.length
    · rw [hold i hi] at hr
      obtain ⟨m, m1, m2⟩ := ih hA i r hr
      refine ⟨m, ?_, m2.before, ?_, ?_⟩
      · rw [List.take_append_of_le_length (by omega)]; exact m1
      · intro a b
        obtain ⟨j, q, e1, e2, e3⟩ := m2.off a b
        exact ⟨j, q, e1, by rw [hold j (by omega)]; exact e2, e3⟩
      · intro a b
        obtain ⟨j, q, e1, e2, e3, e4, e5⟩ := m2.on a b
        refine ⟨j, q, e1, by rw [hold j (by omega)]; exact e2, e3, fun k q' k1 k2 k3 => ?_, e5⟩
        rw [hold k (by omega)] at k3
        exact e4 k q' k1 k2 k3
    · have hie : i = A.recs.length := by
        have := (List.getElem?_eq_some_iff.mp hr).1
        simp at this; omega
      have hrq : r = q := by
        rw [hie, List.getElem?_append_right (Nat.le_refl _)] at hr
        simp at hr; exact hr.symm
      subst hrq
      refine ⟨A'.msb, ?_, ?_, ?_, ?_⟩
      · rw [List.take_of_length_le (by simp; omega)]; exact I'.plays
      · intro hst
        unfold replayPath at n2
        rw [if_neg (by rcases hst with h | h <;> simp [h])] at n2
        simpa using n2.symm
      · intro hst hb
        unfold replayPath at n2
        rw [if_pos hst] at n2
        split at n2
        · cases n2
        rw [← n3, ← n4, if_pos ((offBoth_iff hh hw r).mpr hb), Option.map_eq_some_iff] at n2
        obtain ⟨p, p1, p2⟩ := n2
        have hne : A.recs.length ≠ 0 := by
          intro h0; rw [List.length_eq_zero_iff.mp h0] at p1; cases p1
        refine ⟨A.recs.length - 1, p, by omega, ?_, p2.symm⟩
        rw [hold _ (by omega), ← List.getLast?_eq_getElem?]
        exact p1
      · intro hst hb
        unfold replayPath at n2
        rw [if_pos hst] at n2
        split at n2
        · cases n2
        rw [← n3, ← n4, if_neg (fun h => hb ((offBoth_iff hh hw r).mp h)), Option.map_eq_some_iff] at n2
        obtain ⟨p, p1, p2⟩ := n2
        rw [List.find?_eq_some_iff_append] at p1
        obtain ⟨p1, as, bs, p3, p4⟩ := p1
        have hrec : A.recs = bs.reverse ++ p :: as.reverse := by
          have := congrArg List.reverse p3
          simpa using this
        have hl : A.recs.length = bs.length + (as.length + 1) := by rw [hrec]; simp
        refine ⟨bs.length, p, by omega, ?_, ?_, ?_, p2.symm⟩
        · rw [hold _ (by omega), hrec, List.getElem?_append_right (by simp)]
          simp
        · intro hc
          rw [(offBoth_iff hh hw p).mpr hc] at p1
          cases p1
        · intro k q' k1 k2 k3
          rw [hold k (by omega), hrec, List.getElem?_append_right (by simp; omega)] at k3
          have hk : k - bs.reverse.length = (k - bs.length - 1) + 1 := by simp; omega
          rw [hk, List.getElem?_cons_succ] at k3
          have := p4 q' (List.mem_reverse.mp (List.mem_of_getElem? k3))
          simp only [Bool.not_not] at this
          exact (offBoth_iff hh hw q').mp this

/-- **C59** The way shown while a video is played, wherever the player has been moved, is the one of the event it is at, which
follows the rule. -/
theorem C59_path {v : View} {h w pix mines : Nat} (hv : Numbered v) (hh : h < 65536) (hw : w < 65536) {evs : List RawEv}
    {A : Replay} (hA : analyse dist v h w pix evs = some A) (hne : evs ≠ []) {P : Player} (hP : Playing A h w mines P)
    (base : Stats) :
    ∃ r m, (P.stats base).getPath = some r.path ∧ A.recs[P.cur]? = some r ∧ play pix v (evs.take (P.cur + 1)) = some m ∧
      WayRule dist h w pix m A.recs P.cur r := by
  obtain ⟨r, m, hr, hc, hm, -⟩ := player_at hv hA hne hP base
  obtain ⟨m', hm', hw'⟩ := analyse_way hv hh hw hA _ _ hr
  rw [hm, Option.some.injEq] at hm'
  subst hm'
  refine ⟨r, m, ?_, hr, hm, hw'⟩
  have hs : (P.stats base).state = .display := hP.inv.state
  have hrs : (P.stats base).recs ≠ [] := by
    intro h0
    have : (P.stats base).current = none := by unfold Stats.current; rw [h0]; rfl
    rw [this] at hc; cases hc
  unfold Stats.getPath
  rw [if_neg hrs, if_pos hs, hc]
  rfl

/-- **C59** In a live session the way is 0 until something is recorded; after a recorded event it is 0 if the game had not
started, and otherwise the way at the latest earlier event on the board and the distance from there. -/
theorem C59_live_path {b : Bool} {t now : Nat} {L L' : Live} {e : Ev} {pos : Pos} (h : Session dist b t L) (mn : Nat)
    (htn : t ≤ now) (he : e ≠ .pf) (hp1 : pos.1 < 65536) (hp2 : pos.2 < 65536)
    (hs : L.step dist now e pos = some (L', true)) (r : Rec) (hr : L'.recs = L.recs ++ [r]) :
    (L.recs = [] → (L.stats mn).getPath = some 0) ∧
    (L.gstate ≠ .playing → (L'.stats mn).getPath = some 0) ∧
    (L.gstate = .playing → ∃ l q l', L.recs = l ++ q :: l' ∧ Spec.OnBoard L q ∧ (∀ q' ∈ l', ¬ Spec.OnBoard L q') ∧
      (L'.stats mn).getPath = some (q.path + dist (q.y, q.x) pos)) := by
  have h' : Session dist b now L' := .step h htn he hp1 hp2 hs
  have hlast : (L'.stats mn).getPath = some r.path := by
    have hnd : L'.gstate ≠ .display := by rw [h'.linv.gst]; exact h'.linv.reach.inv.nd
    obtain ⟨s1, s2, -⟩ := live_stats L' mn
    unfold Stats.getPath
    rw [s2, s1, if_neg (by simp [hr]), if_neg hnd, hr]
    simp
  obtain ⟨p1, p2⟩ := C48_path h hs r hr
  refine ⟨fun h0 => ?_, fun hg => by rw [hlast, p1 hg], fun hg => ?_⟩
  · obtain ⟨s1, s2, -⟩ := live_stats L mn
    unfold Stats.getPath
    rw [s2, if_pos h0]
  · obtain ⟨l, q, l', q1, q2, q3, q4⟩ := p2 hg
    exact ⟨l, q, l', q1, q2, q3, by rw [hlast, q4]⟩

/-- **C59** The numbers of `get_mouse_state`, one per state of the mouse, in the order of the enumeration. -/
theorem C59_mouse_codes : [Mouse.upUp, .upDown, .upDownNotFlag, .downUp, .chording, .chordingNotFlag, .downUpAfterChording,
    .undefined].map Stats.mouseCode = [1, 2, 3, 4, 5, 6, 7, 8] := rfl

/-- The hypotheses of `C59_path` are met by the recorded sample game (see `sampleVideo_analysed`), whose way grows. -/
example : ∃ A evs, analyse taxi gameSample.view 3 4 10 evs = some A ∧ evs ≠ [] ∧ Playing A 3 4 2 (A.player 3 4 2) ∧
    A.recs.map (·.path) = [0, 0, 30, 30, 30, 70, 70, 80, 80, 100, 100, 120, 120, 150, 150] := by
  obtain ⟨A, evs, h1, h2, h3, -⟩ := sampleVideo_analysed
  have hd : (sampleVideo.map fun A => A.recs.map (·.path)) =
      some [0, 0, 30, 30, 30, 70, 70, 80, 80, 100, 100, 120, 120, 150, 150] := by decide +kernel
  rw [h1, Option.map_some, Option.some.injEq] at hd
  exact ⟨A, evs, h3, h2, .start, hd⟩

end Ms.Properties
