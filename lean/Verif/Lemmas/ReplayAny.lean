import Verif.Lemmas.Replay
import Verif.Lemmas.GameBoard

/-! # `analyse` on the events of any file -/

namespace Ms
open Spec MSB Properties

variable {dist : Pos → Pos → ℚ}

theorem play_snoc {pix : Nat} {v : View} {evs : List RawEv} {r : RawEv} :
    play pix v (evs ++ [r]) = (play pix v evs).bind fun m =>
      match m.step r.ev (r.y / pix, r.x / pix) with
      | some (m', some _) => some m'
      | _ => none := by
  unfold play
  rw [List.foldlM_append]
  congr 1
  funext m
  rw [List.foldlM_cons]
  cases h : m.step r.ev (r.y / pix, r.x / pix) with
  | none => rfl
  | some x => rcases x with ⟨m', _ | a⟩ <;> rfl

/-- What one iteration does, when it returns. -/
theorem next_eff {h w pix : Nat} {A A' : Replay} {r : RawEv} (hn : A.next dist h w pix r = some A') :
    ∃ m a path, A.msb.step r.ev (r.y / pix, r.x / pix) = some (m, some a) ∧ A'.msb = m ∧
      A'.stream = A.stream ++ (if a ≥ 1 then [m.gameBoard] else []) ∧
      A'.delta = (if a ≥ 1 ∧ A.msb.state ≠ .playing then r.time else A.delta) ∧
      A'.recs = A.recs ++ [{
        time := r.time, ev := r.ev, x := r.x, y := r.y, useful := a, prior := A.stream.length - 1,
        next := A'.stream.length - 1, mouseSt := m.mouse, left := m.left, right := m.right,
        double := m.double, ce := m.ce, flag := m.flag, bbbvSolved := m.bbbvSolved, path := path }] := by
  unfold Replay.next at hn
  simp only at hn
  by_cases hmv : r.ev = .mv
  · rw [if_pos hmv, Option.map_eq_some_iff] at hn
    obtain ⟨path, -, rfl⟩ := hn
    rw [hmv]
    exact ⟨A.msb, 0, path, step_mv _, rfl, by simp, by simp, rfl⟩
  · rw [if_neg hmv] at hn
    split at hn
    · cases hn
    · cases hs : A.msb.step r.ev (r.y / pix, r.x / pix) with
      | none => rw [hs] at hn; cases hn
      | some x =>
        rcases x with ⟨m, _ | a⟩
        · rw [hs] at hn; cases hn
        · rw [hs] at hn
          simp only at hn
          split at hn
          · rename_i ha
            rw [Option.map_eq_some_iff] at hn
            obtain ⟨path, -, rfl⟩ := hn
            exact ⟨m, a, path, rfl, rfl, by simp [ha], by simp [ha], rfl⟩
          · rename_i ha
            rw [Option.map_eq_some_iff] at hn
            obtain ⟨path, -, rfl⟩ := hn
            exact ⟨m, a, path, rfl, rfl, by simp [ha], by simp [ha], rfl⟩

theorem faithful_of_core {s : MSB} (h : s.Core) : Faithful s.board s.gameBoard := by
  refine ⟨by rw [h.hrow, h.hcol]; exact h.rect, fun p hp => ?_⟩
  rw [h.vcells] at hp
  have := h.marks p hp
  unfold gb bd at this
  unfold val
  rcases this with h1 | h1 | h1 | ⟨-, h1 | h1⟩
  · left; show (10 : Int) ≤ _; omega
  · left; omega
  · exact .inr h1
  · left; omega
  · left; omega

/-- the invariant: `A` is what `analyse` has built from `evs` -/
structure ReplayInv (pix : Nat) (v : View) (h w : Nat) (evs : List RawEv) (A : Replay) : Prop where
  reach : Reach A.msb
  board : A.msb.board = v
  plays : play pix v evs = some A.msb
  raw : A.recs.map Rec.raw = evs
  first : A.stream[0]? = some (coveredBoard h w)
  faithful : ∀ g ∈ A.stream, Faithful v g ∨ g = coveredBoard h w
  last : A.recs ≠ [] → ∃ r, A.recs.getLast? = some r ∧ r.next = A.stream.length - 1
  none : A.recs = [] → A.stream.length = 1
  events : ∀ i r, A.recs[i]? = some r → ∃ m0 m, play pix v (evs.take i) = some m0 ∧
    m0.step r.ev (r.y / pix, r.x / pix) = some (m, some r.useful) ∧
    r.mouseSt = m.mouse ∧ r.left = m.left ∧ r.right = m.right ∧ r.double = m.double ∧ r.ce = m.ce ∧ r.flag = m.flag ∧
    r.bbbvSolved = m.bbbvSolved ∧ r.next = r.prior + (if r.useful = 0 then 0 else 1) ∧ r.next < A.stream.length ∧
    (r.useful ≠ 0 → A.stream[r.next]? = some m.gameBoard) ∧
    (i = 0 → r.prior = 0) ∧ ∀ r', A.recs[i + 1]? = some r' → r'.prior = r.next
  waiting : A.msb.state = .ready ∨ A.msb.state = .preFlaging → ∀ r ∈ A.recs, r.useful ≤ 1
  playing : A.msb.state = .playing → ∃ r ∈ A.recs, 2 ≤ r.useful
  delta : (∃ r ∈ A.recs, 2 ≤ r.useful) →
    ∃ l r l', A.recs = l ++ r :: l' ∧ (∀ q ∈ l, q.useful ≤ 1) ∧ 2 ≤ r.useful ∧ A.delta = r.time

theorem step_level_playing {s s' : MSB} {e : Ev} {p : Pos} {a : Nat} (hs : s.step e p = some (s', some a))
    (h : s.state = .win ∨ s.state = .loss) : a = 0 ∧ s'.state = s.state := by
  rw [step_eq] at hs
  rcases h with h | h <;> rw [h] at hs <;> simp [Flow.run] at hs <;> exact ⟨hs.2.symm, by rw [← hs.1, h]⟩

theorem analyse_inv {v : View} {h w pix : Nat} (hv : Numbered v) : ∀ {evs : List RawEv} {A : Replay},
    analyse dist v h w pix evs = some A → ReplayInv pix v h w evs A := by
  intro evs
  induction evs using List.reverseRecOn with
  | nil =>
    intro A hA
    simp only [analyse, List.foldlM_nil, Option.pure_def, Option.some.injEq] at hA
    subst hA
    exact
      { reach := .new hv, board := rfl, plays := rfl, raw := rfl, first := rfl
        faithful := fun g hg => by simp at hg; exact .inr hg
        last := fun h => absurd rfl h
        none := fun _ => rfl
        events := fun i r hr => by simp at hr
        waiting := fun _ r hr => by simp at hr
        playing := fun h => by cases h
        delta := fun ⟨r, hr, _⟩ => by simp at hr }
  | append_singleton evs e ih =>
    intro A' hA
    rw [analyse_snoc, Option.bind_eq_some_iff] at hA
    obtain ⟨A, hA, hn⟩ := hA
    have I := ih hA
    obtain ⟨m, a, path, n1, n2, n3, n4, n5⟩ := next_eff hn
    set r0 : Rec := {
        time := e.time, ev := e.ev, x := e.x, y := e.y, useful := a, prior := A.stream.length - 1,
        next := A'.stream.length - 1, mouseSt := m.mouse, left := m.left, right := m.right,
        double := m.double, ce := m.ce, flag := m.flag, bbbvSolved := m.bbbvSolved, path := path } with hr0
    have hlen : A.recs.length = evs.length := by rw [← I.raw]; simp
    have hpos : 0 < A.stream.length := by
      obtain ⟨h1, -⟩ := List.getElem?_eq_some_iff.mp I.first
      exact h1
    have hreach : Reach A'.msb := by rw [n2]; exact .step I.reach n1
    have hboard : A'.msb.board = v := by
      rw [n2]
      exact ((MSB.step_eff n1).frame I.reach.inv).1.trans I.board
    have hplay : play pix v (evs ++ [e]) = some m := by
      rw [play_snoc, I.plays]
      simp only [Option.bind_some, n1]
    have hslen : A'.stream.length = A.stream.length + (if a = 0 then 0 else 1) := by
      rw [n3, List.length_append]
      by_cases ha : a = 0
      · simp [ha]
      · have : a ≥ 1 := by omega
        simp [ha, this]
    have hcases : (A.msb.state = .ready ∨ A.msb.state = .preFlaging) ∨ A.msb.state = .playing ∨
        (A.msb.state = .win ∨ A.msb.state = .loss) := by
      have := I.reach.inv.nd
      cases hs : A.msb.state <;> simp_all
    exact
      { reach := hreach
        board := hboard
        plays := by rw [n2]; exact hplay
        raw := by rw [n5, List.map_append, I.raw]; rfl
        first := by rw [n3, List.getElem?_append_left hpos]; exact I.first
        faithful := by
          intro g hg
          rw [n3, List.mem_append] at hg
          rcases hg with hg | hg
          · exact I.faithful g hg
          · split at hg
            · rw [List.mem_singleton] at hg
              subst hg
              have := faithful_of_core hreach.inv.core
              rw [hboard, n2] at this
              exact .inl this
            · simp at hg
        last := fun _ => ⟨r0, by rw [n5]; simp, rfl⟩
        none := fun hh => by rw [n5] at hh; simp at hh
        events := by
          intro i r hr
          rcases Nat.lt_trichotomy i A.recs.length with hi | hi | hi
          · rw [n5, List.getElem?_append_left hi] at hr
            obtain ⟨m0, m', e1, e2, e3, e4, e5, e6, e7, e8, e9, e10, e11, e12, e13, e14⟩ := I.events i r hr
            refine ⟨m0, m', ?_, e2, e3, e4, e5, e6, e7, e8, e9, e10, by omega, fun hu => ?_, e13, fun r' hr' => ?_⟩
            · rw [List.take_append_of_le_length (by omega)]; exact e1
            · rw [n3, List.getElem?_append_left e11]; exact e12 hu
            · rw [n5] at hr'
              by_cases hi' : i + 1 < A.recs.length
              · rw [List.getElem?_append_left hi'] at hr'
                exact e14 r' hr'
              · have hi2 : i + 1 = A.recs.length := by omega
                rw [hi2, List.getElem?_concat_length, Option.some.injEq] at hr'
                obtain ⟨q, q1, q2⟩ := I.last (by intro hh; rw [hh] at hi; simp at hi)
                rw [List.getLast?_eq_getElem?] at q1
                have : A.recs.length - 1 = i := by omega
                rw [this, hr, Option.some.injEq] at q1
                rw [← hr', q1, q2]
          · subst hi
            rw [n5, List.getElem?_concat_length, Option.some.injEq] at hr
            subst hr
            have hlast : A'.stream.length - 1 = A.stream.length - 1 + (if a = 0 then 0 else 1) := by omega
            refine ⟨A.msb, m, ?_, n1, rfl, rfl, rfl, rfl, rfl, rfl, rfl, hlast, ?_, fun hu => ?_, fun h0 => ?_, fun r' hr' => ?_⟩
            · rw [hlen, List.take_left]; exact I.plays
            · show A'.stream.length - 1 < A'.stream.length
              omega
            · have hu : a ≠ 0 := hu
              have ha : a ≥ 1 := by omega
              show A'.stream[A'.stream.length - 1]? = _
              rw [← List.getLast?_eq_getElem?, n3, if_pos ha]
              simp
            · show A.stream.length - 1 = 0
              rw [I.none (List.eq_nil_of_length_eq_zero h0)]
            · rw [n5, List.getElem?_eq_none (by simp)] at hr'
              cases hr'
          · rw [n5, List.getElem?_eq_none (by simp; omega)] at hr
            cases hr
        waiting := by
          intro hst r hr
          rw [n2] at hst
          have hold : A.msb.state = .ready ∨ A.msb.state = .preFlaging := by
            rcases hcases with h1 | h1 | h1
            · exact h1
            · have := (MSB.step_state I.reach.inv n1).2.1 h1
              rcases hst with h2 | h2 <;> rw [h2] at this <;> simp at this
            · have := (step_level_playing n1 h1).2
              rcases h1 with h1 | h1 <;> rcases hst with h2 | h2 <;> rw [h1, h2] at this <;> simp at this
          rw [n5, List.mem_append, List.mem_singleton] at hr
          rcases hr with hr | rfl
          · exact I.waiting hold r hr
          · have := MSB.step_level I.reach.inv n1 hold
            show a ≤ 1
            rcases hst with h1 | h1 <;> rw [h1] at this <;> simp at this <;> omega
        playing := by
          intro hst
          rw [n2] at hst
          rw [n5]
          rcases hcases with h1 | h1 | h1
          · have := MSB.step_level I.reach.inv n1 h1
            rw [hst] at this
            simp at this
            exact ⟨r0, by simp, by show 2 ≤ a; omega⟩
          · obtain ⟨r, r1, r2⟩ := I.playing h1
            exact ⟨r, by simp [r1], r2⟩
          · have := (step_level_playing n1 h1).2
            rcases h1 with h1 | h1 <;> rw [h1, hst] at this <;> simp at this
        delta := by
          rintro ⟨q, hq, hq2⟩
          have hfrom : (∃ r ∈ A.recs, 2 ≤ r.useful) → A.msb.state = .playing ∨ a = 0 := by
            rintro ⟨r, r1, r2⟩
            rcases hcases with h1 | h1 | h1
            · have := I.waiting h1 r r1
              omega
            · exact .inl h1
            · exact .inr (step_level_playing n1 h1).1
          have hkeep : (∃ r ∈ A.recs, 2 ≤ r.useful) →
              ∃ l r l', A'.recs = l ++ r :: l' ∧ (∀ q ∈ l, q.useful ≤ 1) ∧ 2 ≤ r.useful ∧ A'.delta = r.time := by
            intro hex
            obtain ⟨l, r, l', d1, d2, d3, d4⟩ := I.delta hex
            refine ⟨l, r, l' ++ [r0], by rw [n5, d1]; simp, d2, d3, ?_⟩
            rw [n4, if_neg]
            · exact d4
            · rcases hfrom hex with h1 | h1
              · exact fun hh => hh.2 h1
              · omega
          rw [n5, List.mem_append, List.mem_singleton] at hq
          rcases hq with hq | rfl
          · exact hkeep ⟨q, hq, hq2⟩
          · have ha : 2 ≤ a := hq2
            rcases hcases with h1 | h1 | h1
            · refine ⟨A.recs, r0, [], n5, I.waiting h1, hq2, ?_⟩
              rw [n4, if_pos ⟨by omega, by rcases h1 with h1 | h1 <;> simp [h1]⟩]
            · exact hkeep (I.playing h1)
            · have := (step_level_playing n1 h1).1
              omega }

end Ms
