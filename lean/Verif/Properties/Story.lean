import Verif.Lemmas.GameKinds
import Verif.Properties.Whole
import Verif.Properties.Standard

/-! # C85: what the standard says about the recording in a file -/

namespace Ms.Properties
open Ms Ms.Spec

variable {dist : Pos → Pos → ℚ}

/-- how a recording begins and ends -/
def Told85 (L : Live) : Prop :=
  (L.msb.state ≠ .ready → ∃ r rest, L.recs = r :: rest ∧ (r.ev = .lc ∨ r.ev = .rc)) ∧
  (L.msb.state = .win ∨ L.msb.state = .loss → ∃ l r, L.recs = l ++ [r] ∧ r.ev ∉ [Ev.mv, .lc, .rc, .mc, .cc])

theorem session_told {b : Bool} {t : Nat} {L : Live} (h : Session dist b t L) : Told85 L := by
  induction h with
  | new hv => exact ⟨fun h => absurd rfl h, fun h => by rcases h with h | h <;> cases h⟩
  | @step b t now L L' e pos ok hses hle he h1 h2 hs ih =>
    have hi := hses.linv
    have eff := Live.step_eff hi.reach.inv (fun hp => hi.stream_ne (by simp [hp])) hs
    cases eff with
    | over _ => exact ih
    | refused m hm =>
      have : m = L.msb := MSB.step_err hi.reach.inv hm
      subst this
      exact ih
    | back m a hm hr =>
      refine ⟨fun h => absurd hr h, fun h => ?_⟩
      have h' : m.state = .win ∨ m.state = .loss := h
      rw [hr] at h'
      rcases h' with h' | h' <;> cases h'
    | saved m a path hm hmr ho _ _ =>
      refine ⟨fun _ => ?_, fun hend => ?_⟩
      · by_cases hrdy : L.msb.state = .ready
        · refine ⟨_, [], by show L.recs ++ [_] = _; rw [(hi.ready hrdy).1]; rfl, ?_⟩
          exact MSB.step_begins hrdy he hm hmr
        · obtain ⟨r, rest, e1, e2⟩ := ih.1 hrdy
          exact ⟨r, rest ++ [_], by show L.recs ++ [_] = _; rw [e1]; rfl, e2⟩
      · refine ⟨L.recs, _, rfl, fun hq => ?_⟩
        have hn : L.msb.state ≠ .win ∧ L.msb.state ≠ .loss := by
          rcases ho with ho | ho | ho <;> rw [ho] <;> simp
        have := MSB.step_quiet hn hq hm
        exact hend.elim this.1 this.2
  | @board b t L L' v hses hv hst hs ih =>
    unfold Live.setBoard at hs
    rcases hst with hst | hst <;> rw [hst] at hs <;> simp only at hs <;> split at hs <;>
      simp only [Prod.mk.injEq, Bool.false_eq_true, and_false, and_true] at hs <;>
      (obtain ⟨rfl⟩ := hs; exact ih)
  | fresh _ _ ih => exact ih
  | reset _ _ _ => exact ⟨fun h => absurd rfl h, fun h => by rcases h with h | h <;> cases h⟩
  | @pix b t L pix hses hr ih =>
    have : (L.setPix pix).1 = { L with pix := pix } := by
      unfold Live.setPix
      rw [if_neg (by rw [hr]; simp)]
    rw [this]
    exact ih

theorem evOf_release {m : String} (h : evOf m ∈ mouseEvents) (hn : evOf m ∉ [Ev.mv, .lc, .rc, .mc, .cc]) :
    m = "lr" ∨ m = "rr" ∨ m = "mr" := by
  by_cases h1 : m = "lr"
  · exact .inl h1
  by_cases h2 : m = "rr"
  · exact .inr (.inl h2)
  by_cases h3 : m = "mr"
  · exact .inr (.inr h3)
  exfalso
  unfold evOf at h hn
  rw [if_neg h1, if_neg h2, if_neg h3] at h hn
  by_cases g1 : m = "lc"
  · rw [if_pos g1] at hn; exact hn (by decide)
  rw [if_neg g1] at h hn
  by_cases g2 : m = "rc"
  · rw [if_pos g2] at hn; exact hn (by decide)
  rw [if_neg g2] at h hn
  by_cases g3 : m = "mc"
  · rw [if_pos g3] at hn; exact hn (by decide)
  rw [if_neg g3] at h hn
  by_cases g4 : m = "mv"
  · rw [if_pos g4] at hn; exact hn (by decide)
  rw [if_neg g4] at h hn
  by_cases g5 : m = "cc"
  · rw [if_pos g5] at hn; exact hn (by decide)
  rw [if_neg g5] at h
  clear hn h1 h2 h3 g1 g2 g3 g4 g5
  split at h
  · exact absurd h (by decide)
  split at h
  · exact absurd h (by decide)
  split at h
  · exact absurd h (by decide)
  split at h
  · exact absurd h (by decide)
  split at h
  · exact absurd h (by decide)
  split at h
  · exact absurd h (by decide)
  · exact absurd h (by decide)

theorem evOf_press {m : String} (h : evOf m = .lc ∨ evOf m = .rc) : m = "lc" ∨ m = "rc" := by
  by_cases h1 : m = "lc"
  · exact .inl h1
  by_cases h2 : m = "rc"
  · exact .inr h2
  exfalso
  have : evOf m ≠ .lc ∧ evOf m ≠ .rc := by
    unfold evOf
    rw [if_neg h1, if_neg h2]
    clear h h1 h2
    split
    · decide
    split
    · decide
    split
    · decide
    split
    · decide
    split
    · decide
    split
    · decide
    split
    · decide
    split
    · decide
    split
    · decide
    split
    · decide
    split
    · decide
    split
    · decide
    decide
  exact h.elim this.1 this.2

theorem timeline_sorted {L : Live} {b : Bool} {t : Nat} (h : Session dist b t L) (hs : L.gstate ≠ .ready) :
    (L.recs.map (·.time)).Pairwise (· ≤ ·) := by
  rw [← List.isChain_iff_pairwise, List.isChain_iff_getElem]
  intro i hi
  have := (C48_timeline h hs).2.2
  simp only [List.length_map] at hi
  rw [List.getElem_map, List.getElem_map]
  exact ((this i L.recs[i] (List.getElem?_eq_getElem (by omega))).2.2.1 L.recs[i + 1]
    (List.getElem?_eq_getElem (by omega))).2

/-- **C85** The file of a finished game tells its story as the standard has it: the first event is a press of the left or the
right button at time 0, times never decrease, the last event is the release that ended the game, and its time is at least the
time of the game. -/
theorem C85_story {t : Nat} {W : Whole} (h : Life dist true t W) (ho : W.live.gstate = .win ∨ W.live.gstate = .loss)
    (hh : W.live.height < 256) (hw : W.live.width < 256) (ht : ∀ r ∈ W.live.recs, r.time < 2 ^ 24) :
    ∃ W' out, W.call dist .generate = some (W', true) ∧ Evf.parseVideo W'.raw = .ok (out, []) ∧
      (∃ first rest, out.events = first :: rest ∧ first.ms = 0 ∧ (first.mouse = "lc" ∨ first.mouse = "rc")) ∧
      (out.events.map (·.ms)).Pairwise (· ≤ ·) ∧
      (∃ init last, out.events = init ++ [last] ∧ (last.mouse = "lr" ∨ last.mouse = "rr" ∨ last.mouse = "mr") ∧
        out.hdr.rtimeMs ≤ last.ms) := by
  obtain ⟨W', out, g1, -, -, g2, -, g3, -, -, -, -, -, -, -, -, -, g4, -, -, -⟩ := C67_file h ho hh hw ht
  refine ⟨W', out, g1, g2, ?_⟩
  have li := life_inv h
  obtain ⟨b, L, h1, h2, -⟩ := li.ses
  have hrecs : W.live.recs = L.recs := by rw [h2]
  have hgs : W.live.gstate = L.gstate := by rw [h2]
  have hrt : W.live.rtimeMs = L.rtimeMs := by rw [h2]
  have ll := h1.linv
  have hend : L.msb.state = .win ∨ L.msb.state = .loss := by rw [← ll.gst, ← hgs]; exact ho
  have hnr : L.gstate ≠ .ready := by rw [ll.gst]; rcases hend with h | h <;> rw [h] <;> simp
  rw [hrecs] at g4
  have hms : out.events.map (·.ms) = L.recs.map (·.time) := by
    have := congrArg (List.map RawEv.time) g4
    rw [List.map_map, List.map_map] at this
    exact this
  refine ⟨?_, by rw [hms]; exact timeline_sorted h1 hnr, ?_⟩
  · obtain ⟨r, rest, e1, e2⟩ := (session_told h1).1 (by rw [← ll.gst]; exact hnr)
    obtain ⟨r', e3, -, e4, -⟩ := (C48_timeline h1 hnr).2.1
    rw [e1] at e3
    obtain rfl : r = r' := by simpa using e3
    cases hev : out.events with
    | nil => rw [hev, e1] at g4; cases g4
    | cons f fs =>
      rw [hev, e1] at g4
      simp only [List.map_cons, List.cons.injEq] at g4
      have k := g4.1
      unfold fromFile Rec.raw at k
      simp only [RawEv.mk.injEq] at k
      exact ⟨f, fs, rfl, by rw [k.1]; exact e4, evOf_press (by rw [k.2.1]; exact e2)⟩
  · obtain ⟨l, r, e1, e2⟩ := (session_told h1).2 hend
    obtain ⟨l', r', e1', -, -, e3⟩ := ll.fin hend
    have e4 := List.append_inj' (e1.symm.trans e1') rfl
    simp only [List.cons.injEq, and_true] at e4
    obtain ⟨rfl, rfl⟩ := e4
    have hle : L.rtimeMs ≤ r.time := by
      rcases e3 with ⟨_, _, _, _, _, _, k⟩ | ⟨_, _, _, k⟩ <;> omega
    rw [e1, List.map_append] at g4
    obtain ⟨l1, l2, k1, k2, k3⟩ := List.map_eq_append_iff.mp g4
    have hl2 : ∃ f, l2 = [f] := by
      have := congrArg List.length k3
      simp only [List.length_map, List.length_cons, List.length_nil] at this
      exact List.length_eq_one_iff.mp this
    obtain ⟨f, rfl⟩ := hl2
    simp only [List.map_cons, List.map_nil, List.cons.injEq, and_true] at k3
    unfold fromFile Rec.raw at k3
    simp only [RawEv.mk.injEq] at k3
    have hmem := (li.events r (by rw [hrecs, e1]; simp)).1
    refine ⟨l1, f, k1, evOf_release (by rw [k3.2.1]; exact hmem) (by rw [k3.2.1]; exact e2), ?_⟩
    rw [g3, hrt, k3.1]
    exact hle

/-- **C85** (finding) "Official" need not mean completed: a lost game can be marked official, and the file says so. -/
theorem C85_official_lost {t : Nat} {W : Whole} (h : Life dist true t W) (ho : W.live.gstate = .loss)
    (hh : W.live.height < 256) (hw : W.live.width < 256) (ht : ∀ r ∈ W.live.recs, r.time < 2 ^ 24) :
    ∃ W1 W2 out, W.call dist (.setOffical true) = some (W1, true) ∧ W1.call dist .generate = some (W2, true) ∧
      Evf.parseVideo W2.raw = .ok (out, []) ∧ out.hdr.offical = true ∧ out.hdr.completed = false := by
  have h1 : W.call dist (.setOffical true) = some ({ W with offical := true }, true) := by
    rw [(C67_setters W).1 true, if_pos (.inr ho)]
  have hl : Life dist true t { W with offical := true } := .call (c := .setOffical true) h trivial h1
  obtain ⟨W2, out, g1, -, -, g2, g3, -, g4, -⟩ := C67_file hl (.inr ho) hh hw ht
  refine ⟨_, W2, out, h1, g1, g2, g4, ?_⟩
  cases hc : out.hdr.completed with
  | false => rfl
  | true =>
    have := g3.mp hc
    rw [show ({ W with offical := true } : Whole).live.gstate = W.live.gstate from rfl, ho] at this
    cases this

/-- **C85** (finding) The size of a cell can be changed after the game is over, and the file then carries the new size with the
events as they were; with size 0 no event of the file lies on the board. -/
theorem C85_pixel {t : Nat} {W : Whole} (h : Life dist true t W) (ho : W.live.gstate = .win ∨ W.live.gstate = .loss)
    (hh : W.live.height < 256) (hw : W.live.width < 256) (ht : ∀ r ∈ W.live.recs, r.time < 2 ^ 24) (n : Nat) (hn : n < 256) :
    ∃ W1 W2 out, W.call dist (.setPix n) = some (W1, true) ∧ W1.call dist .generate = some (W2, true) ∧
      Evf.parseVideo W2.raw = .ok (out, []) ∧ out.hdr.cellPixel = n ∧ out.events.map fromFile = W.live.recs.map Rec.raw ∧
      (n = 0 → ∀ e ∈ out.events, out.hdr.height * out.hdr.cellPixel ≤ e.y ∧ out.hdr.width * out.hdr.cellPixel ≤ e.x) := by
  have h1 : W.call dist (.setPix n) = some ({ W with live := { W.live with pix := n } }, true) := by
    show some (({ W with live := (W.live.setPix n).1 } : Whole), (W.live.setPix n).2) = _
    have : W.live.setPix n = ({ W.live with pix := n }, true) := by
      unfold Live.setPix
      rw [if_neg (by rcases ho with h | h <;> simp [h])]
    rw [this]
  have hl : Life dist true t { W with live := { W.live with pix := n } } := .call (c := .setPix n) h hn h1
  obtain ⟨W2, out, g1, -, -, g2, -, -, -, -, -, -, -, -, g3, -, -, g4, -⟩ := C67_file hl ho hh hw ht
  refine ⟨_, W2, out, h1, g1, g2, g3, g4, fun h0 e _ => ?_⟩
  rw [g3]
  show _ * n ≤ _ ∧ _ * n ≤ _
  rw [h0]
  simp

/-- **C85** (finding) Points off the board are recorded as they are given, not as "rows × size, columns × size": a move to any
point is accepted and recorded with that point. -/
theorem C85_outside {b : Bool} {t now : Nat} {L : Live} {pos : Pos} (h : Session dist b t L) (hp : L.gstate = .playing)
    (hle : t ≤ now) (h1 : pos.1 < 65536) (h2 : pos.2 < 65536) :
    ∃ L' r, L.step dist now .mv pos = some (L', true) ∧ L'.recs = L.recs ++ [r] ∧ r.ev = .mv ∧ (r.y, r.x) = pos := by
  have ll := h.linv
  have hst : L.msb.state = .playing := by rw [← ll.gst]; exact hp
  have hm : L.msb.step .mv (pos.1 / L.pix, pos.2 / L.pix) = some (L.msb, some 0) := by
    rw [MSB.step_eq, hst]
    rfl
  have hno := C51_no_panic_partial h hle (ll.pix (by rw [hst]; simp)) (e := .mv) (pos := pos) (by rw [hm]; simp)
    (by rw [hp]; simp)
  cases hs : L.step dist now .mv pos with
  | none => exact absurd hs hno
  | some x =>
    obtain ⟨L', ok⟩ := x
    have eff := Live.step_eff ll.reach.inv (fun hp => ll.stream_ne (by simp [hp])) hs
    have hok : ok = true := by
      cases eff with
      | over _ => rfl
      | refused m hm' => rw [hm] at hm'; simp at hm'
      | back m a hm' hr => rfl
      | saved m a path hm' _ _ _ _ => rfl
    subst hok
    obtain ⟨a, k1, k2⟩ := (C48_step h hle (by simp) h1 h2 hs).2.2 rfl (by rw [hp]; simp) (by rw [hp]; simp)
    rw [hm] at k1
    simp only [Option.some.injEq, Prod.mk.injEq] at k1
    rcases k2 with ⟨k2, -⟩ | ⟨r, new, k2, k3, k4, -⟩
    · have hi' := (Live.step_inv ll hle (by simp) h1 h2 hs).gst
      rw [k2, ← k1.1, hst] at hi'
      cases hi'
    · exact ⟨L', r, rfl, k2, k3, k4⟩

/-- **C85** (finding) The bit for games without a flag is never set. -/
theorem C85_nf (v : Evf.Rec) (bs : Evf.Bytes) (hg : Evf.generate v = some bs) :
    ∃ sum rest, bs = 0 :: sum :: rest ∧ sum.testBit 4 = false := by
  unfold Evf.generate at hg
  cases h1 : Evf.genHdr v.hdr with
  | none => rw [h1] at hg; simp at hg
  | some hb =>
    cases h2 : Evf.genEvents v.events with
    | none => rw [h1, h2] at hg; simp at hg
    | some eb =>
      rw [h1, h2] at hg
      simp only [Option.bind_eq_bind, Option.bind_some, Option.pure_def, Option.some.injEq] at hg
      unfold Evf.genHdr at h1
      simp only [Option.bind_eq_bind, Option.bind_eq_some_iff, Option.pure_def, Option.some.injEq] at h1
      obtain ⟨_, -, _, -, _, -, _, -, _, -, _, -, _, -, _, -, _, -, rfl⟩ := h1
      refine ⟨Evf.flagByte v.hdr, _, hg.symm, ?_⟩
      unfold Evf.flagByte
      generalize v.hdr.completed = a, v.hdr.offical = b, v.hdr.fair = c
      revert a b c
      decide

/-- A game that was won, with its file. -/
example : ∃ t W, Life taxi true t W ∧ ∃ W' out, W.call taxi .generate = some (W', true) ∧
    Evf.parseVideo W'.raw = .ok (out, []) ∧ ∃ first rest, out.events = first :: rest ∧ first.ms = 0 := by
  obtain ⟨t, W, -, h2, h3, h4, h5, h6, -⟩ := wholeSample_life
  obtain ⟨W', out, g1, g2, ⟨f, fs, g3, g4, -⟩, -⟩ := C85_story h2 (.inl h3) h4 h5 h6
  exact ⟨t, W, h2, W', out, g1, g2, f, fs, g3, g4⟩

/-- A lost game: a cell opened, then a mine. -/
def lostSample : Option (Bool × Nat × Whole) := runCalls taxi true 7 (Whole.new gameSample.view 10 7)
  [.step 2000 .lc (5, 35) [49], .step 52600 .lr (5, 35) [49], .step 60000 .lc (15, 5) [49], .step 90000 .lr (15, 5) [50]]

example : ∃ t W, Life taxi true t W ∧ W.live.gstate = .loss ∧ ∃ W1 W2 out, W.call taxi (.setOffical true) = some (W1, true) ∧
    W1.call taxi .generate = some (W2, true) ∧ Evf.parseVideo W2.raw = .ok (out, []) ∧ out.hdr.offical = true ∧
    out.hdr.completed = false := by
  have hs : (lostSample.map fun r => (r.1, r.2.2.live.gstate, r.2.2.live.height, r.2.2.live.width)) =
    some (true, .loss, 3, 4) := by decide +kernel
  have hr : (lostSample.map fun r => decide (∀ q ∈ r.2.2.live.recs, q.time < 2 ^ 24)) = some true := by decide +kernel
  cases hw : lostSample with
  | none => rw [hw] at hs; cases hs
  | some x =>
    obtain ⟨p, t, W⟩ := x
    rw [hw] at hs hr
    simp only [Option.map_some, Option.some.injEq, Prod.mk.injEq] at hs
    obtain ⟨rfl, a2, a3, a4⟩ := hs
    simp only [Option.map_some, Option.some.injEq, decide_eq_true_eq] at hr
    have hl : Life taxi true t W := life_run (.new gameSample_numbered (by decide) (by decide)) hw
    exact ⟨t, W, hl, a2, C85_official_lost hl a2 (by omega) (by omega) hr⟩

end Ms.Properties
