import Verif.Lemmas.Session

/-! # Replaying a recording with `analyse` -/

namespace Ms
open Spec MSB

/-- A recorded event and the same event of the replay: the same except for the length of the mouse path; `d`
double clicks and, if `ex`, `c` effective clicks more. -/
structure RecMatch (ex : Prop) (d c : Nat) (r q : Rec) : Prop where
  raw : r.raw = q.raw
  useful : r.useful = q.useful
  prior : r.prior = q.prior
  next : r.next = q.next
  mouseSt : r.mouseSt = q.mouseSt
  left : r.left = q.left
  right : r.right = q.right
  flag : r.flag = q.flag
  bbbvSolved : r.bbbvSolved = q.bbbvSolved
  double : r.double = q.double + d
  ce : ex → r.ce = q.ce + c

variable {dist : Pos → Pos → ℚ}

theorem replayPath_some {h w pix : Nat} {st : GState} {recs : List Rec} {r : RawEv} (h1 : h * pix < 65536)
    (h2 : w * pix < 65536) (hpix : 0 < pix)
    (hx : st = .preFlaging ∨ ∃ q, recs.head? = some q ∧ q.y < h * pix) : ∃ path, replayPath dist h w pix st recs r = some path := by
  have hh : h % 65536 = h := Nat.mod_eq_of_lt (lt_of_le_of_lt (Nat.le_mul_of_pos_right h hpix) h1)
  have hw : w % 65536 = w := Nat.mod_eq_of_lt (lt_of_le_of_lt (Nat.le_mul_of_pos_right w hpix) h2)
  unfold replayPath
  rw [hh, hw]
  rcases hx with rfl | ⟨q, hq, hy⟩
  · exact ⟨0, by simp⟩
  split
  · rw [if_neg (by rintro (h | ⟨h, _⟩) <;> omega)]
    split
    · have hne : recs ≠ [] := by rintro rfl; simp at hq
      exact ⟨(recs.getLast hne).path, by rw [List.getLast?_eq_some_getLast hne]; rfl⟩
    · cases hf : recs.reverse.find? fun q => !offBoth h w pix q.y q.x with
      | some q' => exact ⟨_, rfl⟩
      | none =>
        rw [List.find?_eq_none] at hf
        have := hf q (by rw [List.mem_reverse]; exact List.mem_of_head? hq)
        simp [offBoth] at this
        omega
  · exact ⟨0, rfl⟩

theorem next_ok {h w pix : Nat} {A : Replay} {r : RawEv} {m : MSB} {a : Nat} (h1 : h * pix < 65536)
    (h2 : w * pix < 65536) (hpix : 0 < pix)
    (hx : m.state = .preFlaging ∨ ∃ q, A.recs.head? = some q ∧ q.y < h * pix)
    (hs : A.msb.step r.ev (r.y / pix, r.x / pix) = some (m, some a)) :
    ∃ A' path, A.next dist h w pix r = some A' ∧ A'.msb = m ∧
      A'.stream = A.stream ++ (if a ≥ 1 then [m.gameBoard] else []) ∧
      A'.recs = A.recs ++ [{
        time := r.time, ev := r.ev, x := r.x, y := r.y, useful := a, prior := A.stream.length - 1,
        next := A'.stream.length - 1, mouseSt := m.mouse, left := m.left, right := m.right,
        double := m.double, ce := m.ce, flag := m.flag, bbbvSolved := m.bbbvSolved, path := path }] := by
  obtain ⟨path, hp⟩ := replayPath_some (dist := dist) (r := r) h1 h2 hpix hx
  unfold Replay.next
  simp only
  by_cases hmv : r.ev = .mv
  · rw [hmv, step_mv] at hs
    simp only [Option.some.injEq, Prod.mk.injEq] at hs
    obtain ⟨rfl, rfl⟩ := hs
    rw [if_pos hmv, hp]
    exact ⟨_, path, rfl, rfl, by simp, rfl⟩
  · rw [if_neg hmv, if_neg (by omega), hs]
    simp only
    split
    · rw [hp]
      exact ⟨_, path, rfl, rfl, rfl, rfl⟩
    · rw [hp]
      exact ⟨_, path, rfl, rfl, by simp, rfl⟩

theorem analyse_snoc {v : View} {h w pix : Nat} {evs : List RawEv} {r : RawEv} :
    analyse dist v h w pix (evs ++ [r]) = (analyse dist v h w pix evs).bind fun A => A.next dist h w pix r := by
  unfold analyse
  rw [List.foldlM_append]
  congr 1
  funext A
  rw [List.foldlM_cons]
  cases A.next dist h w pix r <;> rfl

namespace Live

/-- The recording of `L`, replayed on board `v`, gives the same boards, machine and events. -/
def Replays (dist : Pos → Pos → ℚ) (L : Live) (v : View) (P : Replay → Prop) : Prop :=
  ∃ A, analyse dist v L.height L.width L.pix (L.recs.map Rec.raw) = some A ∧ A.msb.board = v ∧
    A.stream = L.stream ∧ Reach A.msb ∧ P A

/-- the invariant -/
structure RInv (dist : Pos → Pos → ℚ) (b : Bool) (L : Live) : Prop where
  pre : L.msb.state = .preFlaging → ∃ d c, (∀ r, L.recs.head? = some r → r.double = d ∧ c ≤ r.ce) ∧ ∀ v, Numbered v → v.row = L.height → v.col = L.width →
    L.Replays dist v fun A => PSim d L.msb A.msb ∧
      (v = L.msb.board → Sim (b = true) d c L.msb A.msb) ∧
      List.Forall₂ (RecMatch (b = true ∧ v = L.msb.board) d c) L.recs A.recs
  game : L.msb.state ≠ .ready → L.msb.state ≠ .preFlaging → ∃ d c,
    (∀ r, L.recs.head? = some r → r.double = d ∧ c ≤ r.ce) ∧ L.Replays dist L.msb.board fun A => Sim (b = true) d c L.msb A.msb ∧
      List.Forall₂ (RecMatch (b = true) d c) L.recs A.recs

theorem rinv_ready {b : Bool} {L : Live} (h : L.msb.state = .ready) : RInv dist b L :=
  ⟨fun h' => (by simp [h] at h'), fun h' => absurd h h'⟩

theorem head_match {ex : Prop} {d c : Nat} {l l' : List Rec} (h : List.Forall₂ (RecMatch ex d c) l l') {r : Rec}
    (hr : l.head? = some r) : ∃ q, l'.head? = some q ∧ q.y = r.y := by
  cases h with
  | nil => simp at hr
  | cons h1 h2 =>
    simp only [List.head?_cons, Option.some.injEq] at hr
    subst hr
    refine ⟨_, rfl, ?_⟩
    have := h1.raw
    simp only [Rec.raw, RawEv.mk.injEq] at this
    exact this.2.2.2.symm

theorem stream_len {L : Live} {m : MSB} {a : Nat} {S : List Board}
    (hS : S = if L.stream = [] then [coveredBoard L.height L.width] else L.stream) :
    (L.newStream m a).length - (if a ≥ 1 then 2 else 1) = S.length - 1 := by
  unfold newStream
  rw [← hS, List.length_append]
  by_cases ha : a ≥ 1
  · simp only [if_pos ha, List.length_cons, List.length_nil]; omega
  · simp only [if_neg ha, List.length_nil]; omega

/-- one more event -/
theorem replays_step {ex : Prop} {d c : Nat} {L : Live} {now : Nat} {e : Ev} {pos : Pos} {m t' : MSB} {a : Nat}
    {path : ℚ} {v : View} {A : Replay} (p1 : pos.1 < 65536) (p2 : pos.2 < 65536)
    (h1 : L.height * L.pix < 65536) (h2 : L.width * L.pix < 65536)
    (hpix : 0 < L.pix) (hA : analyse dist v L.height L.width L.pix (L.recs.map Rec.raw) = some A)
    (hb : A.msb.board = v) (hr : Reach A.msb)
    (hS : A.stream = if L.stream = [] then [coveredBoard L.height L.width] else L.stream)
    (hx : t'.state = .preFlaging ∨ ∃ q, A.recs.head? = some q ∧ q.y < L.height * L.pix)
    (hst : A.msb.step e (pos.1 / L.pix, pos.2 / L.pix) = some (t', some a)) (hgb : t'.gameBoard = m.gameBoard)
    (hm : t'.mouse = m.mouse ∧ t'.left = m.left ∧ t'.right = m.right ∧ t'.flag = m.flag ∧
      t'.bbbvSolved = m.bbbvSolved ∧ m.double = t'.double + d ∧ (ex → m.ce = t'.ce + c))
    (hall : List.Forall₂ (RecMatch ex d c) L.recs A.recs) :
    (L.recorded now e pos m a path).Replays dist v fun A' => A'.msb = t' ∧
      List.Forall₂ (RecMatch ex d c) (L.recorded now e pos m a path).recs A'.recs := by
  have e1 : pos.1 % 65536 = pos.1 := Nat.mod_eq_of_lt p1
  have e2 : pos.2 % 65536 = pos.2 := Nat.mod_eq_of_lt p2
  set r := L.newRec (L.newStream m a) m a (L.stamp now) e pos path with hrdef
  have hs' : A.msb.step r.raw.ev (r.raw.y / L.pix, r.raw.x / L.pix) = some (t', some a) := by
    show A.msb.step e ((pos.1 % 65536) / L.pix, (pos.2 % 65536) / L.pix) = _
    rw [e1, e2]; exact hst
  obtain ⟨A', path', n1, n2, n3, n4⟩ := next_ok (dist := dist) (r := r.raw) h1 h2 hpix hx hs'
  have hlen : A'.stream = L.newStream m a := by
    rw [n3, hS, hgb]; rfl
  refine ⟨A', ?_, ?_, hlen, ?_, n2, ?_⟩
  · show analyse dist v L.height L.width L.pix ((L.recs ++ [r]).map Rec.raw) = some A'
    rw [List.map_append, List.map_singleton, analyse_snoc, hA]
    exact n1
  · rw [n2, ← hb]
    exact ((MSB.step_eff hst).frame hr.inv).1
  · rw [n2]; exact .step hr hst
  · show List.Forall₂ _ (L.recs ++ [r]) A'.recs
    rw [n4]
    refine List.rel_append hall (List.Forall₂.cons ?_ List.Forall₂.nil)
    exact
      { raw := rfl, useful := rfl, prior := stream_len hS, next := by rw [hlen]; rfl
        mouseSt := hm.1.symm, left := hm.2.1.symm, right := hm.2.2.1.symm, flag := hm.2.2.2.1.symm
        bbbvSolved := hm.2.2.2.2.1.symm, double := hm.2.2.2.2.2.1, ce := hm.2.2.2.2.2.2 }

theorem allCovered {s : MSB} (h : s.GInv) (hst : s.state = .ready ∨ s.state = .preFlaging) : s.AllCovered := by
  intro p hp
  have := (h.pre hst).1 p (inRange_iff.mp hp)
  omega

theorem psim_fields {d : Nat} {s t : MSB} (h : PSim d s t) : t.mouse = s.mouse ∧ t.left = s.left ∧
    t.right = s.right ∧ t.flag = s.flag ∧ t.bbbvSolved = s.bbbvSolved ∧ s.double = t.double + d ∧
    t.gameBoard = s.gameBoard ∧ t.state = s.state := by
  obtain ⟨b, x, l, rfl⟩ := h
  exact ⟨rfl, rfl, rfl, rfl, rfl, rfl, rfl, rfl⟩

theorem sim_fields {ex : Prop} {d c : Nat} {s t : MSB} (h : Sim ex d c s t) : t.mouse = s.mouse ∧ t.left = s.left ∧
    t.right = s.right ∧ t.flag = s.flag ∧ t.bbbvSolved = s.bbbvSolved ∧ s.double = t.double + d ∧
    t.gameBoard = s.gameBoard ∧ t.state = s.state ∧ (ex → s.ce = t.ce + c) := by
  obtain ⟨x, l, rfl, he⟩ := h
  exact ⟨rfl, rfl, rfl, rfl, rfl, rfl, rfl, rfl, fun hx => (he hx).1⟩

theorem step_sim_some {ex : Prop} {d c : Nat} {s t s' : MSB} {r : Option Nat} (h : Sim ex d c s t)
    (hst : s.state ≠ .ready) {e : Ev} {p : Pos} (hs : s.step e p = some (s', r)) (hs' : s'.state ≠ .ready) :
    ∃ t', t.step e p = some (t', r) ∧ Sim ex d c s' t' := by
  have h' := step_sim h hst e p
  rw [hs] at h'
  rcases ht : t.step e p with _ | ⟨t', r'⟩
  · rw [ht] at h'; exact absurd h' (by simp [SimR])
  · rw [ht] at h'
    obtain ⟨rfl, h2 | h2⟩ := h'
    · exact ⟨t', rfl, h2⟩
    · exact absurd h2.1 hs'

theorem rightClick_double {s s' : MSB} {p : Pos} {r : Option Nat} (h : s.rightClick p = some (s', r)) :
    s'.double = s.double := by
  unfold rightClick at h
  split at h
  · simp at h
  simp only at h
  split at h
  · simp only [Option.some.injEq, Prod.mk.injEq] at h; rw [← h.1]
  split at h
  · split at h
    · simp only [Option.some.injEq, Prod.mk.injEq] at h; rw [← h.1]
    · simp only [Option.some.injEq, Prod.mk.injEq] at h; rw [← h.1]; simp only; split <;> rfl
  split at h
  · split at h
    · simp at h
    · simp only [Option.some.injEq, Prod.mk.injEq] at h; rw [← h.1]
  · simp only [Option.some.injEq, Prod.mk.injEq] at h; rw [← h.1]

theorem new_step_double {v : View} {e : Ev} {p : Pos} {t' : MSB} {r : Option Nat}
    (h : (MSB.new v).step e p = some (t', r)) : t'.double = 0 := by
  have hst : (MSB.new v).state = .ready := rfl
  cases MSB.step_eff h with
  | idle => rfl
  | start => rfl
  | back => rfl
  | backClear => rfl
  | unflagLast => rfl
  | preFlag m k _ _ _ _ _ _ _ hc => exact rightClick_double hc
  | preUnflag m k _ _ h' _ _ _ _ _ hc => rw [hst] at h'; cases h'
  | right m _ _ h' _ _ hc => rw [hst] at h'; cases h'
  | left m _ _ h' _ _ hc => rw [hst] at h'; rcases h' with h' | h'; cases h'; cases h'.1
  | chord m mh dec _ _ h' _ _ hc => rw [hst] at h'; rcases h' with h' | h' <;> cases h'
  | miss => rfl

theorem head_keep {L : Live} {now : Nat} {e : Ev} {pos : Pos} {m : MSB} {a : Nat} {path : ℚ} {d c : Nat} {q : Rec}
    (hq : L.recs.head? = some q) (h : ∀ r, L.recs.head? = some r → r.double = d ∧ c ≤ r.ce) :
    ∀ r, (L.recorded now e pos m a path).recs.head? = some r → r.double = d ∧ c ≤ r.ce := by
  intro r hr
  have hx : (L.recs ++ [L.newRec (L.newStream m a) m a (L.stamp now) e pos path]).head? = some r := hr
  rw [List.head?_append, hq] at hx
  exact h r (by rw [hq]; simpa using hx)

theorem step_rinv {b : Bool} {t now : Nat} {L L' : Live} {e : Ev} {pos : Pos} {ok : Bool} (h : LInv t L)
    (he : e ≠ .pf) (p1 : pos.1 < 65536) (p2 : pos.2 < 65536)
    (h1 : L.height * L.pix < 65536) (h2 : L.width * L.pix < 65536) (hR : RInv dist b L)
    (hs : L.step dist now e pos = some (L', ok)) : RInv dist b L' := by
  have hg := h.reach.inv
  have eff := step_eff hg (fun hp => h.stream_ne (by simp [hp])) hs
  cases eff with
  | over _ => exact hR
  | refused m hm =>
    have : m = L.msb := MSB.step_err hg hm
    subst this
    exact hR
  | back m a hm hr => exact rinv_ready hr
  | saved m a path hm hr ho hp ht =>
    have hf := (MSB.step_eff hm).frame hg
    have hnr : L.msb.state ≠ .ready → 0 < L.pix ∧ ∃ q, L.recs.head? = some q ∧ q.y < L.height * L.pix := by
      intro hne
      obtain ⟨q, q1, q2, -⟩ := h.head hne
      exact ⟨h.pix hne, q, q1, q2.1⟩
    have hpix : 0 < L.pix := by
      rcases Nat.eq_zero_or_pos L.pix with h0 | h0
      · by_cases hready : L.msb.state = .ready
        · unfold Live.step at hs
          simp [h0, hready] at hs
        · exact (hnr hready).1
      · exact h0
    have hbd : (L.recorded now e pos m a path).msb.board = L.msb.board := hf.1
    rcases ho with ho | ho | ho
    · -- the recording begins
      obtain ⟨s1, -, s3⟩ := step_start hg h.wait ho he hm hr
      have hd : m.double = L.msb.double ∧ L.msb.ce ≤ m.ce := by
        have hc := hg.core
        obtain ⟨t', t1, -, t3⟩ := s3 L.msb.board hc.hrow hc.hcol
        have f := sim_fields (t3 rfl)
        have h0 := new_step_double t1
        refine ⟨by rw [f.2.2.2.2.2.1, h0]; simp, ?_⟩
        rw [f.2.2.2.2.2.2.2.2 trivial]; omega
      refine ⟨fun _ => ⟨L.msb.double, L.msb.ce, ?_, fun v hv v1 v2 => ?_⟩, fun _ h' => absurd s1 h'⟩
      · intro r0 hr0
        have : r0 = L.newRec (L.newStream m a) m a (L.stamp now) e pos path := by
          have hx : (L.recs ++ [L.newRec (L.newStream m a) m a (L.stamp now) e pos path]).head? = some r0 := hr0
          rw [(h.ready ho).1] at hx
          simpa using hx.symm
        rw [this]
        exact hd
      obtain ⟨t', t1, t2, t3⟩ := s3 v (v1.trans h.hrow) (v2.trans h.hcol)
      have f := psim_fields t2
      have hA : analyse dist v L.height L.width L.pix (L.recs.map Rec.raw) =
          some { msb := MSB.new v, stream := [coveredBoard L.height L.width], recs := [], delta := 0 } := by
        rw [(h.ready ho).1]; rfl
      obtain ⟨A', a1, a2, a3, a4, a5, a6⟩ := replays_step (dist := dist)
        (ex := b = true ∧ v = L.msb.board) (d := L.msb.double) (c := L.msb.ce) (now := now) (path := path) (m := m)
        p1 p2 h1 h2 hpix hA rfl (Reach.new hv)
        (by rw [if_pos (h.ready ho).2]) (.inl (f.2.2.2.2.2.2.2.trans s1)) t1 f.2.2.2.2.2.2.1
        ⟨f.1, f.2.1, f.2.2.1, f.2.2.2.1, f.2.2.2.2.1, f.2.2.2.2.2.1, fun hx => (sim_fields (t3 hx.2)).2.2.2.2.2.2.2.2 trivial⟩
        (by rw [(h.ready ho).1]; exact .nil)
      refine ⟨A', a1, a2, a3, a4, ?_, fun hv => ?_, ?_⟩
      · rw [a5]; exact t2
      · rw [hbd] at hv
        rw [a5]
        obtain ⟨x, l, hx, hy⟩ := t3 hv
        exact ⟨x, l, hx, fun _ => hy trivial⟩
      · rw [hbd]; exact a6
    · obtain ⟨hpx, q, q1, q2⟩ := hnr (by simp [ho])
      obtain ⟨d, c, h0, hv⟩ := hR.pre ho
      have h0' := head_keep (now := now) (e := e) (pos := pos) (m := m) (a := a) (path := path) q1 h0
      refine ⟨fun hm' => ⟨d, c, h0', fun v hn v1 v2 => ?_⟩, fun _ hm' => ⟨d, c, h0', ?_⟩⟩
      · have hm1 : m.state = .preFlaging := hm'
        obtain ⟨A, a1, a2, a3, a4, a5, a6, a7⟩ := hv v hn v1 v2
        obtain ⟨t', t1, t2⟩ := step_psim a5 ho (allCovered hg (.inr ho)) e _ _ _ hm hm1
        have t3 : v = L.msb.board → Sim (b = true) d c m t' := by
          intro hvb
          obtain ⟨t'', u1, u2⟩ := step_sim_some (a6 hvb) (by simp [ho]) hm hr
          rw [t1] at u1
          simp only [Option.some.injEq, Prod.mk.injEq, and_true] at u1
          rw [u1]; exact u2
        have f := psim_fields t2
        obtain ⟨q', q3, q4⟩ := head_match a7 q1
        obtain ⟨A', c1, c2, c3, c4, c5, c6⟩ := replays_step (dist := dist)
          (ex := b = true ∧ v = L.msb.board) (d := d) (c := c) (now := now) (path := path) (m := m)
          p1 p2 h1 h2 hpix a1 a2 a4
          (by rw [if_neg (h.stream_ne (by simp [ho])), a3]) (.inr ⟨q', q3, by rw [q4]; exact q2⟩) t1 f.2.2.2.2.2.2.1
          ⟨f.1, f.2.1, f.2.2.1, f.2.2.2.1, f.2.2.2.2.1, f.2.2.2.2.2.1,
            fun hx => (sim_fields (t3 hx.2)).2.2.2.2.2.2.2.2 hx.1⟩ a7
        refine ⟨A', c1, c2, c3, c4, ?_, fun hvb => ?_, ?_⟩
        · rw [c5]; exact t2
        · rw [hbd] at hvb
          rw [c5]; exact t3 hvb
        · rw [hbd]; exact c6
      · have hc := hg.core
        obtain ⟨A, a1, a2, a3, a4, a5, a6, a7⟩ := hv L.msb.board hc.num (hc.hrow.trans h.hrow.symm) (hc.hcol.trans h.hcol.symm)
        obtain ⟨t', t1, t2⟩ := step_sim_some (a6 rfl) (by simp [ho]) hm hr
        have f := sim_fields t2
        obtain ⟨q', q3, q4⟩ := head_match a7 q1
        have a8 : List.Forall₂ (RecMatch (b = true) d c) L.recs A.recs :=
          a7.imp fun _ _ hm => { hm with ce := fun hx => hm.ce ⟨hx, rfl⟩ }
        obtain ⟨A', c1, c2, c3, c4, c5, c6⟩ := replays_step (dist := dist)
          (ex := b = true) (d := d) (c := c) (now := now) (path := path) (m := m)
          p1 p2 h1 h2 hpix a1 a2 a4
          (by rw [if_neg (h.stream_ne (by simp [ho])), a3]) (.inr ⟨q', q3, by rw [q4]; exact q2⟩) t1 f.2.2.2.2.2.2.1
          ⟨f.1, f.2.1, f.2.2.1, f.2.2.2.1, f.2.2.2.2.1, f.2.2.2.2.2.1, f.2.2.2.2.2.2.2.2⟩ a8
        rw [hbd]
        refine ⟨A', c1, c2, c3, c4, ?_, c6⟩
        rw [c5]; exact t2
    · obtain ⟨hpx, q, q1, q2⟩ := hnr (by simp [ho])
      obtain ⟨d, c, h0, A, a1, a2, a3, a4, a6, a7⟩ := hR.game (by simp [ho]) (by simp [ho])
      have h0' := head_keep (now := now) (e := e) (pos := pos) (m := m) (a := a) (path := path) q1 h0
      refine ⟨fun hm' => ?_, fun _ hm' => ⟨d, c, h0', ?_⟩⟩
      · exfalso
        have hm1 : m.state = .preFlaging := hm'
        have := (MSB.step_state hg hm).2.1 ho
        rw [hm1] at this; simp at this
      · obtain ⟨t', t1, t2⟩ := step_sim_some a6 (by simp [ho]) hm hr
        have f := sim_fields t2
        obtain ⟨q', q3, q4⟩ := head_match a7 q1
        obtain ⟨A', c1, c2, c3, c4, c5, c6⟩ := replays_step (dist := dist)
          (ex := b = true) (d := d) (c := c) (now := now) (path := path) (m := m)
          p1 p2 h1 h2 hpix a1 a2 a4
          (by rw [if_neg (h.stream_ne (by simp [ho])), a3]) (.inr ⟨q', q3, by rw [q4]; exact q2⟩) t1 f.2.2.2.2.2.2.1
          ⟨f.1, f.2.1, f.2.2.1, f.2.2.2.1, f.2.2.2.2.1, f.2.2.2.2.2.1, f.2.2.2.2.2.2.2.2⟩ a7
        rw [hbd]
        refine ⟨A', c1, c2, c3, c4, ?_, c6⟩
        rw [c5]; exact t2

theorem setBoard_rinv {b : Bool} {t : Nat} {L L' : Live} {v : View} (h : LInv t L)
    (hst : L.gstate = .ready ∨ L.gstate = .preFlaging) (hR : RInv dist b L)
    (hs : L.setBoard v = (L', true)) : RInv dist false L' := by
  obtain ⟨h1, h2, rfl⟩ := setBoard_eq hs
  rw [h.gst] at hst
  rcases hst with hst | hst
  · exact rinv_ready hst
  · refine ⟨fun _ => ?_, fun _ h' => absurd hst h'⟩
    obtain ⟨d, c, h0, hv⟩ := hR.pre hst
    refine ⟨d, c, h0, fun v' hn v1 v2 => ?_⟩
    obtain ⟨A, a1, a2, a3, a4, ⟨bd, x, l, a5⟩, a6, a7⟩ := hv v' hn v1 v2
    refine ⟨A, a1, a2, a3, a4, ⟨v, x, l, ?_⟩, fun hvv => ⟨x, l, ?_, fun h => by cases h⟩, ?_⟩
    · rw [a5]
    · show ({ L.msb with board := v } : MSB) = _
      have hvv : v' = v := hvv
      rw [a5, ← hvv, ← a2]
    · exact a7.imp fun _ _ hm => { hm with ce := fun hx => by cases hx.1 }

end Live

theorem Spec.Session.rinv {b : Bool} {t : Nat} {L : Live} (h : Session dist b t L)
    (h1 : L.height * L.pix < 65536) (h2 : L.width * L.pix < 65536) : Live.RInv dist b L := by
  induction h with
  | new hv => exact Live.rinv_ready rfl
  | @step b t now L L' e pos ok hS hle he p1 p2 hs ih =>
    have hd : L'.height = L.height ∧ L'.width = L.width ∧ L'.pix = L.pix := by
      have eff := Live.step_eff hS.linv.reach.inv (fun hp => hS.linv.stream_ne (by simp [hp])) hs
      cases eff <;> exact ⟨rfl, rfl, rfl⟩
    rw [hd.1, hd.2.2] at h1
    rw [hd.2.1, hd.2.2] at h2
    exact Live.step_rinv hS.linv he p1 p2 h1 h2 (ih h1 h2) hs
  | @board b t L L' v hS hv hst hs ih =>
    have hd : L'.height = L.height ∧ L'.width = L.width ∧ L'.pix = L.pix := by
      obtain ⟨-, -, rfl⟩ := Live.setBoard_eq hs; exact ⟨rfl, rfl, rfl⟩
    rw [hd.1, hd.2.2] at h1
    rw [hd.2.1, hd.2.2] at h2
    exact Live.setBoard_rinv hS.linv hst (ih h1 h2) hs
  | fresh hS hst _ => exact Live.rinv_ready (hS.linv.gst.symm.trans hst)
  | reset _ _ _ => exact Live.rinv_ready rfl
  | pix hS hst _ =>
    refine Live.rinv_ready ?_
    have := hS.linv.gst.symm.trans hst
    unfold Live.setPix
    split <;> exact this

end Ms
