import Verif.Lemmas.Zoom
import Verif.Properties.Player
import Verif.Properties.Features

/-! # C94: how large the cells were drawn and when the recording began -/

namespace Ms
open Spec

namespace Feat

/-- at another time only, `vision_transfer` does the same too -/
theorem zoomed_visionTransfer {t : Nat} (F : Feat) : (F.zoomed 1 t).visionTransfer = F.visionTransfer.map (Feat.zoomed 1 t) := by
  unfold visionTransfer
  rw [show (F.zoomed 1 t).recs = F.recs.map (Rec.zoomed 1 t) from rfl, List.getElem?_map, List.length_map,
    show (F.zoomed 1 t).pix = 1 * F.pix from rfl, Nat.one_mul]
  cases F.recs[0]? with
  | none => rfl
  | some r =>
    simp only [Option.map_some, Option.bind_eq_bind, Option.bind_some]
    rw [show (r.zoomed 1 t).y = 1 * r.y from rfl, show (r.zoomed 1 t).x = 1 * r.x from rfl, Nat.one_mul, Nat.one_mul]
    by_cases hp : F.pix = 0
    · rw [if_pos hp, if_pos hp]; rfl
    rw [if_neg hp, if_neg hp]
    have := foldlM_zoom (f := lookStep) (g := lookStep) (z := fun q : Feat × Look => (q.1.zoomed 1 t, q.2)) (y := id)
      (rng 0 F.recs.length) (F, ⟨(r.y, r.x), (r.y / F.pix, r.x / F.pix), 0⟩) (fun T i _ => by
        unfold lookStep
        simp only [id]
        rw [show (T.1.zoomed 1 t).recs = T.1.recs.map (Rec.zoomed 1 t) from rfl, List.getElem?_map]
        cases T.1.recs[i]? with
        | none => rfl
        | some r =>
          simp only [Option.map_some, Option.bind_some]
          rw [show (r.zoomed 1 t).y = 1 * r.y from rfl, show (r.zoomed 1 t).x = 1 * r.x from rfl, Nat.one_mul, Nat.one_mul,
            show (r.zoomed 1 t).useful = r.useful from rfl, show (r.zoomed 1 t).prior = r.prior from rfl]
          by_cases hu : r.useful ≥ 2
          · rw [if_pos hu, if_pos hu]
            have key : (T.1.zoomed 1 t).lookSay T.2 r.prior (r.y, r.x) = (T.1.lookSay T.2 r.prior (r.y, r.x)).map (Feat.zoomed 1 t) := by
              unfold lookSay
              by_cases hd : dist2 T.2.click (r.y, r.x) ≥ 112 ^ 2
              · rw [if_pos hd, if_pos hd]
                unfold safeNear
                simp only [Option.bind_eq_bind, zoomed_ask]
                cases T.1.ask r.prior GameBoard.getBasicNot with
                | none => rfl
                | some q =>
                  simp only [Option.map_some, Option.bind_some, zoomed_ask]
                  cases q.1.ask r.prior GameBoard.getEnumNot with
                  | none => rfl
                  | some q' => exact zoomed_sayIf _ _ _
              · rw [if_neg hd, if_neg hd]; rfl
            rw [key]
            cases T.1.lookSay T.2 r.prior (r.y, r.x) with
            | none => rfl
            | some F' =>
              simp only [Option.map_some, Option.some.injEq, Prod.mk.injEq, true_and]
              rw [show (F'.zoomed 1 t).pix = 1 * F'.pix from rfl, Nat.one_mul]
          · rw [if_neg hu, if_neg hu]; rfl)
    rw [List.map_id] at this
    erw [this]
    cases (rng 0 F.recs.length).foldlM (m := Option) lookStep (F, ⟨(r.y, r.x), (r.y / F.pix, r.x / F.pix), 0⟩) <;> rfl

end Feat

namespace Properties

/-! ## recording -/

/-- **C94** Two programs make the same calls, one with cells `k` times as large and a clock `d` µs ahead: they get the same
answers (or the same call panics), and in the end the videos differ in the positions, the size of the cells and the moment
the recording began only - the boards, the counters, the times of the events and the result are the same. -/
theorem C94_recording {dist : Nat → Pos → Pos → ℚ} (hd : InCells dist) {k d : Nat} (hk : 0 < k) (v : View) (pix now : Nat)
    {cs : List VCall} (hf : ∀ c ∈ cs, c.Fits k) :
    calls dist (Live.new v (k * pix) (now + d)) (cs.map (VCall.zoomed k d)) =
      (calls dist (Live.new v pix now) cs).map fun q => (q.1.zoomed k d, q.2) :=
  zoomed_calls hd hk cs (Live.new v pix now) hf

/-- **C94** So the clock the program shows during the game is the same. -/
theorem C94_clock (L : Live) (k d now : Nat) : (L.zoomed k d).getTimeMs (now + d) = L.getTimeMs now := by
  unfold Live.getTimeMs
  rw [show (L.zoomed k d).gstate = L.gstate from rfl, show (L.zoomed k d).videoStart = L.videoStart + d from rfl,
    Nat.add_sub_add_right]
  rfl

/-! ## a file -/

/-- **C94** A file of the same game with cells `k` times as large and all events `t` ms later - the board still fits 16 bits -
is analysed to the same boards, counters and paths, with the positions and times of the events changed; or both panic. -/
theorem C94_analyse {dist : Nat → Pos → Pos → ℚ} (hd : InCells dist) {k : Nat} (hk : 0 < k) (t : Nat) (v : View) {h w pix : Nat}
    (hh : (h % 65536) * (k * pix) < 65536) (hw : (w % 65536) * (k * pix) < 65536) (evs : List RawEv) :
    (analyse (dist (k * pix)) v h w (k * pix) (evs.map (RawEv.zoomed k t))).map (fun A => (A.msb, A.stream, A.recs)) =
      (analyse (dist pix) v h w pix evs).map fun A => (A.msb, A.stream, A.recs.map (Rec.zoomed k t)) := by
  have := zoomed_replay (t := t) hk (fun p q => hd k pix p q hk) hh hw evs
    (A := { msb := MSB.new v, stream := [coveredBoard h w], recs := [], delta := 0 })
    (A' := { msb := MSB.new v, stream := [coveredBoard h w], recs := [], delta := 0 }) ⟨rfl, rfl, rfl⟩
  unfold analyse
  revert this
  cases evs.foldlM (m := Option) (Replay.next (dist pix) h w pix)
      { msb := MSB.new v, stream := [coveredBoard h w], recs := [], delta := 0 } with
  | none =>
    intro this
    cases h2 : (evs.map (RawEv.zoomed k t)).foldlM (m := Option) (Replay.next (dist (k * pix)) h w (k * pix))
      { msb := MSB.new v, stream := [coveredBoard h w], recs := [], delta := 0 } with
    | none => rfl
    | some B => rw [h2] at this; exact this.elim
  | some A =>
    intro this
    cases h2 : (evs.map (RawEv.zoomed k t)).foldlM (m := Option) (Replay.next (dist (k * pix)) h w (k * pix))
      { msb := MSB.new v, stream := [coveredBoard h w], recs := [], delta := 0 } with
    | none => rw [h2] at this; exact this.elim
    | some B =>
      rw [h2] at this
      simp only [Option.map_some, this.msb, this.stream, this.recs]

theorem first_unique {p : Rec → Prop} : ∀ {l l1 l2 l1' l2' : List Rec} {r r' : Rec}, l = l1 ++ r :: l2 → l = l1' ++ r' :: l2' →
    (∀ q ∈ l1, ¬ p q) → (∀ q ∈ l1', ¬ p q) → p r → p r' → r = r'
  | l, [], l2, [], l2', r, r', h, h', _, _, _, _ => by
    rw [h] at h'; simp at h'; exact h'.1
  | l, [], l2, a :: l1', l2', r, r', h, h', _, n', hr, _ => by
    rw [h] at h'
    simp only [List.nil_append, List.cons_append, List.cons.injEq] at h'
    exact absurd (h'.1 ▸ hr) (n' a List.mem_cons_self)
  | l, a :: l1, l2, [], l2', r, r', h, h', n, _, _, hr' => by
    rw [h] at h'
    simp only [List.nil_append, List.cons_append, List.cons.injEq] at h'
    exact absurd (h'.1 ▸ hr') (n a List.mem_cons_self)
  | l, a :: l1, l2, b :: l1', l2', r, r', h, h', n, n', hr, hr' => by
    rw [h] at h'
    simp only [List.cons_append, List.cons.injEq] at h'
    exact first_unique rfl h'.2 (fun q hq => n q (List.mem_cons_of_mem _ hq)) (fun q hq => n' q (List.mem_cons_of_mem _ hq)) hr hr'

/-- **C94** If the video opens a cell, the zero of its clock is later by the same time, and a program that plays it - seeks
moments not before the beginning of the recording, jumps to events, asks for probabilities - sees the same boards, tables,
event numbers and times, call for call. -/
theorem C94_play {dist : Nat → Pos → Pos → ℚ} {k t : Nat} (hk : 0 < k) (hd : InCells dist) {v : View} (hv : Numbered v)
    {h w pix : Nat} (hh : (h % 65536) * (k * pix) < 65536) (hw : (w % 65536) * (k * pix) < 65536) {evs : List RawEv} {A : Replay}
    (hA : analyse (dist pix) v h w pix evs = some A) (ho : ∃ r ∈ A.recs, 2 ≤ r.useful) :
    ∃ A', analyse (dist (k * pix)) v h w (k * pix) (evs.map (RawEv.zoomed k t)) = some A' ∧ A'.delta = A.delta + t ∧
      ∀ (m : Nat) (cs : List PlayCall), (∀ c, .time c ∈ cs → -(A.delta : ℚ) ≤ c) →
        playAll (A'.player h w m) cs = playAll (A.player h w m) cs := by
  have e := C94_analyse hd hk t v hh hw evs
  rw [hA] at e
  cases hA' : analyse (dist (k * pix)) v h w (k * pix) (evs.map (RawEv.zoomed k t)) with
  | none => rw [hA'] at e; cases e
  | some A' =>
    rw [hA'] at e
    simp only [Option.map_some, Option.some.injEq, Prod.mk.injEq] at e
    obtain ⟨e1, e2, e3⟩ := e
    have ho' : ∃ r ∈ A'.recs, 2 ≤ r.useful := by
      obtain ⟨r, hr, hu⟩ := ho
      exact ⟨r.zoomed k t, by rw [e3]; exact List.mem_map_of_mem hr, hu⟩
    obtain ⟨l, r, l', d1, d2, d3, d4⟩ := C52_delta hv hA ho
    obtain ⟨m, s, m', c1, c2, c3, c4⟩ := C52_delta hv hA' ho'
    have hr : s = r.zoomed k t := by
      refine first_unique (p := fun q => 2 ≤ q.useful) c1 (l1' := l.map (Rec.zoomed k t)) (l2' := l'.map (Rec.zoomed k t))
        (by rw [e3, d1, List.map_append, List.map_cons]) (fun q hq => by have := c2 q hq; omega) ?_ c3 d3
      intro q hq
      obtain ⟨q', hq', rfl⟩ := List.mem_map.1 hq
      have := d2 q' hq'
      show ¬ 2 ≤ q'.useful
      omega
    have hdel : A'.delta = A.delta + t := by rw [c4, d4, hr]; rfl
    refine ⟨A', rfl, hdel, fun m cs hc => ?_⟩
    rw [show A'.player h w m = (A.player h w m).zoomed k t from by
      simp only [Replay.player, Player.zoomed, e2, e3, hdel, Nat.cast_add]]
    exact zoomed_playAll cs _ hc

/-! ## features -/

/-- **C94** Every feature but `vision_transfer` adds the same comments to the events of the zoomed video, or panics on both. -/
theorem C94_features {dist : Pos → Pos → ℚ} {k : Nat} (hk : 0 < k) (t : Nat)
    (hd : ∀ p q, dist (zoomPos k p) (zoomPos k q) = k * dist p q) (F : Feat) {f : Feature} (hf : f ≠ .visionTransfer) :
    (F.zoomed k t).run dist f = (F.run dist f).map (Feat.zoomed k t) :=
  Feat.zoomed_run hk hd F hf

/-- **C94** With cells of the same size, every feature does, whenever the game was played. -/
theorem C94_features_later {dist : Pos → Pos → ℚ} (t : Nat) (F : Feat) (f : Feature) :
    (F.zoomed 1 t).run dist f = (F.run dist f).map (Feat.zoomed 1 t) := by
  by_cases hf : f = .visionTransfer
  · subst hf; exact Feat.zoomed_visionTransfer F
  · refine Feat.zoomed_run Nat.one_pos (fun p q => ?_) F hf
    simp only [zoomPos, Nat.one_mul, Nat.cast_one, one_mul, Prod.mk.eta]

/-- The events opening the cell in the corner and the one seven cells farther, with cells of `n` pixels. -/
def strideEvents (n : Nat) : List RawEv :=
  [⟨0, .lc, 0, 0⟩, ⟨0, .lr, 0, 0⟩, ⟨0, .lc, 7 * n, 0⟩, ⟨0, .lr, 7 * n, 0⟩]

/-- The first opening makes the two cells between the mines known to be safe. -/
def strideBoard : Board :=
  [[0, 1, -1, 1, 0, 0, 0, 0], [0, 1, 1, 1, 0, 0, 0, 0], [0, 1, 1, 1, 0, 0, 0, 0], [0, 1, -1, 1, 0, 0, 0, 0]]

/-- **C94** `vision_transfer` does look at the size of the cells: it blames a player who leaves safe cells for a place 112
pixels away - the same move of seven cells is blamed if the cells have 20 pixels, and not if they have 10. -/
theorem C94_vision_refuted : Numbered strideBoard.view ∧
    (strideEvents 10).map (RawEv.zoomed 2 0) = strideEvents 20 ∧
    ((analyse taxi strideBoard.view 4 8 10 (strideEvents 10)).bind fun A =>
      ((A.feat 2 10).run taxi .visionTransfer).map fun F => F.comments) = some [[], [], [], []] ∧
    ((analyse taxi strideBoard.view 4 8 20 (strideEvents 20)).bind fun A =>
      ((A.feat 2 20).run taxi .visionTransfer).map fun F => F.comments) = some [[], [.transfer], [], []] := by
  refine ⟨by unfold Numbered; decide +kernel, rfl, by decide +kernel, by decide +kernel⟩

/-! ## the theorems apply -/

/-- sixteen times the way in cells, along the axes -/
def cellTaxi (n : Nat) (p q : Pos) : ℚ := 16 * taxi p q / n

theorem taxi_zoom (k : Nat) (p q : Pos) : taxi (zoomPos k p) (zoomPos k q) = k * taxi p q := by
  unfold taxi zoomPos
  simp only [← Nat.mul_sub, ← Nat.mul_add, Nat.cast_mul]

theorem cellTaxi_inCells : InCells cellTaxi := by
  intro k n p q hk
  have hk' : (k : ℚ) ≠ 0 := Nat.cast_ne_zero.2 (by omega)
  unfold cellTaxi
  rw [taxi_zoom, Nat.cast_mul, mul_left_comm, mul_div_mul_left _ _ hk']

/-- A whole game, reset and begun again: with cells of 30 instead of 10 pixels and a clock 5 s ahead. -/
example : ∃ cs : List VCall, (∀ c ∈ cs, c.Fits 3) ∧ (calls cellTaxi (Live.new gameSample.view 10 7) cs).map (fun q =>
      (q.1.gstate, q.1.rtimeMs, q.1.recs.length, q.2.length)) = some (.win, 108, 15, 19) ∧
    (calls cellTaxi (Live.new gameSample.view 30 5000007) (cs.map (VCall.zoomed 3 5000000))).map (fun q =>
      (q.1.gstate, q.1.rtimeMs, q.1.recs.length, q.2.length)) = some (.win, 108, 15, 19) := by
  refine ⟨[.pix 12, .reset 3 4 10, .board gameSample.view] ++ liveEvents.map fun e => .step e.1 e.2.1 e.2.2, ?_, by decide +kernel,
    by decide +kernel⟩
  intro c hc
  simp only [List.mem_append, List.mem_cons, List.not_mem_nil, or_false, List.mem_map] at hc
  obtain (rfl | rfl | rfl) | ⟨e, he, rfl⟩ := hc
  · trivial
  · trivial
  · trivial
  · have : ∀ e ∈ liveEvents, 3 * e.2.2.1 < 65536 ∧ 3 * e.2.2.2 < 65536 := by decide
    exact this e he

/-- The two videos of the refutation satisfy what `C94_play` asks for. -/
example : Numbered strideBoard.view ∧ (4 % 65536) * (2 * 10) < 65536 ∧ (8 % 65536) * (2 * 10) < 65536 ∧
    ∃ A, analyse (cellTaxi 10) strideBoard.view 4 8 10 (strideEvents 10) = some A ∧ ∃ r ∈ A.recs, 2 ≤ r.useful := by
  refine ⟨by unfold Numbered; decide +kernel, by decide, by decide, ?_⟩
  have hs : ((analyse (cellTaxi 10) strideBoard.view 4 8 10 (strideEvents 10)).map fun A => decide (∃ r ∈ A.recs, 2 ≤ r.useful)) =
      some true := by decide +kernel
  rw [Option.map_eq_some_iff] at hs
  obtain ⟨A, hA, h2⟩ := hs
  exact ⟨A, hA, of_decide_eq_true h2⟩

end Properties
end Ms
