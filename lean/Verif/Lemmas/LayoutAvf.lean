import Verif.Lemmas.Layout

/-! # The layout of AVF files -/

namespace Ms.Vid
open Ms.Spec

theorem avfMeans_iff (b : Buf8) (e : FileEv) : AvfMeans b e ↔ avfEvent b = some e := by
  have hn : ∀ m, (b.b0, m) ∈ avfCode ↔ avfName b.b0 = some m := by
    intro m
    unfold avfCode avfName
    generalize b.b0 = c
    simp only [List.mem_cons, Prod.mk.injEq, List.not_mem_nil, or_false]
    split
    · rename_i h; subst h; simp [eq_comm]
    split
    · rename_i h; subst h; simp [eq_comm]
    split
    · rename_i h; subst h; simp [eq_comm]
    split
    · rename_i h; subst h; simp [eq_comm]
    split
    · rename_i h; subst h; simp [eq_comm]
    split
    · rename_i h; subst h; simp [eq_comm]
    split
    · rename_i h; subst h; simp [eq_comm]
    split
    · rename_i h; subst h; simp [eq_comm]
    split
    · rename_i h; subst h; simp [eq_comm]
    split
    · rename_i h; subst h; simp [eq_comm]
    split
    · rename_i h; subst h; simp [eq_comm]
    · simp_all
  unfold AvfMeans avfEvent
  rw [hn]
  cases avfName b.b0 with
  | none => simp
  | some m =>
    obtain ⟨t, m', x, y⟩ := e
    simp only [Option.some.injEq, Option.map_some, FileEv.mk.injEq]
    constructor
    · rintro ⟨h1, h2, h3, h4⟩; exact ⟨h2.symm, h1, h3.symm, h4.symm⟩
    · rintro ⟨h2, h1, h3, h4⟩; exact ⟨h1, h2.symm, h3.symm, h4.symm⟩

theorem eight_le {l : Bytes} (h : ¬ l.length < 8) : ∃ (b : Buf8) (r : Bytes), l = b.list ++ r := by
  match l with
  | [] | [_] | [_, _] | [_, _, _] | [_, _, _, _] | [_, _, _, _, _] | [_, _, _, _, _, _] | [_, _, _, _, _, _, _] => simp at h
  | c0 :: c1 :: c2 :: c3 :: c4 :: c5 :: c6 :: c7 :: r => exact ⟨⟨c0, c1, c2, c3, c4, c5, c6, c7⟩, r, rfl⟩

theorem avfEvents_eight (b c : Buf8) (r : Bytes) : avfEvents b (c.list ++ r) =
    match avfEvent b with
    | none => .error .invalidEvent
    | some e =>
      if c.b2 = 0 ∧ c.b6 = 0 then .ok ([e], r)
      else
        match avfEvents c r with
        | .ok (es, r') => .ok (e :: es, r')
        | .error e => .error e := by
  rw [avfEvents_eq]
  rfl

theorem list_inj {b c : Buf8} {r s : Bytes} (h : b.list ++ r = c.list ++ s) : b = c ∧ r = s := by
  obtain ⟨b0, b1, b2, b3, b4, b5, b6, b7⟩ := b
  obtain ⟨c0, c1, c2, c3, c4, c5, c6, c7⟩ := c
  simp only [Buf8.list, List.cons_append, List.nil_append, List.cons.injEq] at h
  obtain ⟨rfl, rfl, rfl, rfl, rfl, rfl, rfl, rfl, rfl⟩ := h
  exact ⟨rfl, rfl⟩

theorem avfEvents_ok (b : Buf8) (l r : Bytes) (es : List FileEv) : avfEvents b l = .ok (es, r) ↔
    ∃ (bs : List Buf8) (last : Buf8), l = bs.flatMap Buf8.list ++ last.list ++ r ∧ (∀ c ∈ bs, ¬ (c.b2 = 0 ∧ c.b6 = 0)) ∧
      (last.b2 = 0 ∧ last.b6 = 0) ∧ List.Forall₂ AvfMeans (b :: bs) es := by
  induction hn : l.length using Nat.strong_induction_on generalizing b l es with
  | _ n ih =>
    by_cases hl : l.length < 8
    · constructor
      · intro h
        exfalso
        rw [avfEvents_eq] at h
        split at h
        · cases h
        · match l, hl with
          | [], _ | [_], _ | [_, _], _ | [_, _, _], _ | [_, _, _, _], _ | [_, _, _, _, _], _ | [_, _, _, _, _, _], _
          | [_, _, _, _, _, _, _], _ => cases h
      · rintro ⟨bs, last, rfl, -⟩
        simp [Buf8.list] at hl
        omega
    · obtain ⟨c, r0, rfl⟩ := eight_le hl
      rw [avfEvents_eight]
      constructor
      · intro h
        split at h
        · cases h
        · rename_i e he
          split at h
          · rename_i hc
            rw [ok_pair] at h
            obtain ⟨rfl, rfl⟩ := h
            exact ⟨[], c, rfl, by simp, hc, .cons ((avfMeans_iff b e).mpr he) .nil⟩
          · rename_i hc
            split at h
            · rename_i es' r' h2
              rw [ok_pair] at h
              obtain ⟨rfl, rfl⟩ := h
              obtain ⟨bs, last, rfl, h3, h4, h5⟩ := (ih _ (by subst hn; simp [Buf8.list]; omega) c r0 _ rfl).mp h2
              refine ⟨c :: bs, last, by simp, ?_, h4, .cons ((avfMeans_iff b e).mpr he) h5⟩
              intro x hx
              rcases List.mem_cons.mp hx with rfl | hx
              · exact hc
              · exact h3 x hx
            · cases h
      · rintro ⟨bs, last, h1, h2, h3, h4⟩
        cases h4 with
        | cons he h5 =>
          rename_i e es'
          rw [(avfMeans_iff b e).mp he]
          cases bs with
          | nil =>
            obtain ⟨rfl, rfl⟩ := list_inj h1
            cases h5
            simp only [h3, and_self, if_true]
          | cons x bs =>
            simp only [List.flatMap_cons, List.append_assoc] at h1
            obtain ⟨rfl, rfl⟩ := list_inj h1
            simp only [if_neg (h2 c (by simp))]
            rw [(ih _ (by subst hn; simp [Buf8.list]; omega) c _ es' rfl).mpr
              ⟨bs, last, by simp, fun x hx => h2 x (by simp [hx]), h3, h5⟩]

theorem avfSize_ok (l r : Bytes) (lv w h m : Nat) (hl : ∀ b ∈ l, b < 256) : avfSize l = .ok ((lv, w, h, m), r) ↔
    ((lv, w, h, m) ∈ [(3, 8, 8, 10), (4, 16, 16, 40), (5, 30, 16, 99)] ∨ lv = 6 ∧ 1 ≤ w ∧ 1 ≤ h) ∧
    l = (if lv = 6 then [6, w - 1, h - 1, m / 256, m % 256] else [lv]) ++ r := by
  simp only [avfSize, bind_ok, u8_ok]
  constructor
  · rintro ⟨v, r1, rfl, h1⟩
    split at h1
    · rw [pure_ok] at h1; simp only [Prod.mk.injEq] at h1
      obtain ⟨⟨rfl, rfl, rfl, rfl⟩, rfl⟩ := h1
      rename_i hv; subst hv; simp
    split at h1
    · rw [pure_ok] at h1; simp only [Prod.mk.injEq] at h1
      obtain ⟨⟨rfl, rfl, rfl, rfl⟩, rfl⟩ := h1
      rename_i hv; subst hv; simp
    split at h1
    · rw [pure_ok] at h1; simp only [Prod.mk.injEq] at h1
      obtain ⟨⟨rfl, rfl, rfl, rfl⟩, rfl⟩ := h1
      rename_i hv; subst hv; simp
    split at h1
    · simp only [bind_ok, u8_ok, u16_ok, pure_ok, Prod.mk.injEq] at h1
      obtain ⟨a, r2, rfl, b, r3, rfl, n, r4, ⟨c, d, rfl, rfl⟩, ⟨rfl, rfl, rfl, rfl⟩, rfl⟩ := h1
      rename_i hv; subst hv
      have h1 := hl c (by simp)
      have h2 := hl d (by simp)
      have e1 : (c * 256 + d) / 256 = c := by omega
      have e2 : (c * 256 + d) % 256 = d := by omega
      exact ⟨.inr ⟨rfl, by omega, by omega⟩, by simp [e1, e2]⟩
    · exact (fail_ok.mp h1).elim
  · rintro ⟨h1 | ⟨rfl, h1, h2⟩, rfl⟩
    · simp only [List.mem_cons, Prod.mk.injEq, List.not_mem_nil, or_false] at h1
      rcases h1 with ⟨rfl, rfl, rfl, rfl⟩ | ⟨rfl, rfl, rfl, rfl⟩ | ⟨rfl, rfl, rfl, rfl⟩ <;>
        exact ⟨_, _, rfl, rfl⟩
    · refine ⟨6, _, rfl, ?_⟩
      simp only [show ¬ ((6 : Nat) = 3) from by omega, show ¬ ((6 : Nat) = 4) from by omega,
        show ¬ ((6 : Nat) = 5) from by omega, if_false, if_true]
      simp only [bind_ok, u8_ok, u16_ok, pure_ok, Prod.mk.injEq]
      exact ⟨_, _, rfl, _, _, rfl, m, r, ⟨_, _, rfl, by omega⟩, ⟨trivial, by omega, by omega, rfl⟩, rfl⟩

theorem avfNumbers_eq {h w : Nat} (hh : 0 < h) {b : Board} (hb : Rect b h w) : calBoardNumbers b = some (avfNumbers h w b) := by
  unfold calBoardNumbers avfNumbers
  rw [hb.row_eq, hb.col_eq hh, if_neg (by omega)]

theorem avfMines_boardOf {h w n : Nat} (hh : 0 < h) (l r : Bytes) (b : Board) :
    (∃ b0, avfMines h w n (Board.build h w fun _ _ => 0) l = .ok (b0, r) ∧ avfNumbers h w b0 = b) ↔
    ∃ ps : List (Nat × Nat), ps.length = n ∧ (∀ q ∈ ps, 1 ≤ q.1 ∧ q.1 ≤ h ∧ 1 ≤ q.2 ∧ q.2 ≤ w) ∧ l = flat2 ps ++ r ∧
      BoardOf h w (ps.map fun q => (q.1 - 1, q.2 - 1)) b := by
  have hgood : ∀ q : Nat × Nat, decide (q.1 = 0 ∨ h < q.1 ∨ q.2 = 0 ∨ w < q.2) = false ↔
      1 ≤ q.1 ∧ q.1 ≤ h ∧ 1 ≤ q.2 ∧ q.2 ≤ w := by
    intro q
    rw [decide_eq_false_iff_not]
    omega
  have hM : ∀ ps : List (Nat × Nat), (∀ q ∈ ps, 1 ≤ q.1 ∧ q.1 ≤ h ∧ 1 ≤ q.2 ∧ q.2 ≤ w) →
      ∀ p ∈ ps.map (fun q => (q.1 - 1, q.2 - 1)), p.1 < h ∧ p.2 < w := by
    intro ps hps p hp
    obtain ⟨q, hq, rfl⟩ := List.mem_map.mp hp
    have := hps q hq
    simp only
    omega
  have hfold : ∀ ps : List (Nat × Nat), ps.foldl (fun b q => b.set (q.1 - 1) (q.2 - 1) (-1)) (Board.build h w fun _ _ => 0) =
      (ps.map fun q => (q.1 - 1, q.2 - 1)).foldl (fun b q => b.set q.1 q.2 (-1)) (Board.build h w fun _ _ => 0) := by
    intro ps; rw [List.foldl_map]
  rw [avfMines_eq]
  simp only [readMines_layout, hgood]
  constructor
  · rintro ⟨b0, ⟨ps, h1, h2, h3, rfl⟩, rfl⟩
    refine ⟨ps, h1, h2, h3, ?_⟩
    rw [← calBoardNumbers_boardOf hh _ (hM ps h2), ← hfold]
    refine avfNumbers_eq hh ?_
    rw [hfold]
    exact (setMines_spec _ _ (rect_build h w _) (hM ps h2)).1
  · rintro ⟨ps, h1, h2, h3, h4⟩
    refine ⟨_, ⟨ps, h1, h2, h3, rfl⟩, ?_⟩
    rw [← calBoardNumbers_boardOf hh _ (hM ps h2), ← hfold,
      avfNumbers_eq hh (by rw [hfold]; exact (setMines_spec _ _ (rect_build h w _) (hM ps h2)).1)] at h4
    exact Option.some.inj h4

set_option maxHeartbeats 1000000 in
/-- The parser accepts exactly the files of the layout. -/
theorem parseAvf_layout (parseF64 : Bytes → Option (Option ℚ)) (l r : Bytes) (v : FileVideo) (hl : ∀ b ∈ l, b < 256) :
    parseAvf parseF64 l = .ok (v, r) ↔ ∃ f : AvfFile, f.Valid ∧ l = f.bytes ++ r ∧ f.Video parseF64 v := by
  constructor
  · intro h
    unfold parseAvf at h
    split at h
    · cases h
    obtain ⟨c0, r0, h0, h⟩ := bind_ok.mp h
    obtain ⟨u, r1, h1, h⟩ := bind_ok.mp h
    obtain ⟨⟨lv, w, hh, m⟩, r2, h2, h⟩ := bind_ok.mp h
    obtain ⟨b0, r3, h3, h⟩ := bind_ok.mp h
    obtain ⟨u2, r4, h4, h⟩ := bind_ok.mp h
    obtain ⟨st, r5, h5, h⟩ := bind_ok.mp h
    obtain ⟨et, r6, h6, h⟩ := bind_ok.mp h
    obtain ⟨u3, r8, h8, h⟩ := bind_ok.mp h
    obtain ⟨s, r9, h9, h⟩ := bind_ok.mp h
    cases hs : parseUsize s with
    | none => rw [hs] at h; cases h
    | some bbbv =>
    rw [hs] at h
    obtain ⟨t, r10, h10, h⟩ := bind_ok.mp h
    cases ht : parseF64 (t.map fun c => if c = 44 then 46 else c) with
    | none => simp only [ht] at h; cases h
    | some q =>
    simp only [ht] at h
    obtain ⟨⟨p0, p1⟩, r11, h11, h⟩ := bind_ok.mp h
    obtain ⟨d3, r12, h12, h⟩ := bind_ok.mp h
    obtain ⟨d4, r13, h13, h⟩ := bind_ok.mp h
    obtain ⟨d5, r14, h14, h⟩ := bind_ok.mp h
    obtain ⟨d6, r15, h15, h⟩ := bind_ok.mp h
    obtain ⟨d7, r16, h16, h⟩ := bind_ok.mp h
    obtain ⟨es, r17, h17, h⟩ := bind_ok.mp h
    obtain ⟨e1, r18, h18, h⟩ := bind_ok.mp h
    obtain ⟨e2, r19, h19, h⟩ := bind_ok.mp h
    obtain ⟨e3, r20, h20, h⟩ := bind_ok.mp h
    obtain ⟨e4, r21, h21, h⟩ := bind_ok.mp h
    obtain ⟨e5, r22, h22, h⟩ := bind_ok.mp h
    obtain ⟨e6, r23, h23, h⟩ := bind_ok.mp h
    obtain ⟨e7, r24, h24, h⟩ := bind_ok.mp h
    rw [pure_ok] at h
    obtain ⟨rfl, rfl⟩ := h
    rw [u8_ok] at h0 h12 h13 h14 h15 h16
    obtain ⟨sk, hsk, h1⟩ := skip_ok.mp h1
    subst h0 h1
    rw [avfSize_ok _ _ _ _ _ _ (fun b hb => hl b (by simp [hb]))] at h2
    obtain ⟨h2, rfl⟩ := h2
    have hpos : 0 < hh := by
      rcases h2 with h2 | ⟨-, -, h2⟩
      · simp only [List.mem_cons, Prod.mk.injEq, List.not_mem_nil, or_false] at h2
        omega
      · omega
    obtain ⟨ps, m1, m2, rfl, m4⟩ := (avfMines_boardOf hpos r2 r3 _).mp ⟨b0, h3, rfl⟩
    obtain ⟨mk, rfl, hmk⟩ := avfMark_shortest.mp h4
    obtain ⟨n5, rfl⟩ := upTo_ok.mp h5
    obtain ⟨n6, rfl⟩ := upTo_ok.mp h6
    obtain ⟨tb, rfl, hb⟩ := avfB_shortest.mp h8
    obtain ⟨n9, rfl⟩ := upTo_ok.mp h9
    obtain ⟨n10, rfl⟩ := upTo_ok.mp h10
    obtain ⟨ts, rfl, hts, j, hj⟩ := avfStart_shortest.mp h11
    subst h12 h13 h14 h15 h16
    obtain ⟨bs, last, rfl, k1, k2, k3⟩ := (avfEvents_ok _ _ _ _).mp h17
    obtain ⟨n18, rfl⟩ := upTo_ok.mp h18
    obtain ⟨n19, rfl⟩ := upTo_ok.mp h19
    obtain ⟨n20, rfl⟩ := upTo_ok.mp h20
    obtain ⟨n21, rfl⟩ := upTo_ok.mp h21
    obtain ⟨n22, rfl⟩ := upTo_ok.mp h22
    obtain ⟨n23, rfl⟩ := upTo_ok.mp h23
    obtain ⟨n24, rfl⟩ := upTo_ok.mp h24
    refine ⟨⟨c0 :: sk, lv, w, hh, m, ps, mk, st, et, tb, s, t, ts, ⟨p0, p1, 1, d3, d4, d5, d6, d7⟩, bs, last, e1, e2, e3, e4,
      e5, e6, e7⟩, ?_, ?_, ?_⟩
    · exact ⟨by simp [hsk], h2, ⟨m1, m2⟩, hmk, n5, n6, hb, n9, n10, hts, ⟨j, hj⟩, k1, k2, n18, n19, n20, n21, n22, n23, n24⟩
    · simp only [AvfFile.bytes, AvfFile.sizeBytes, List.flatten_cons, List.flatten_nil, List.append_assoc, List.cons_append,
        List.nil_append]
    · exact ⟨⟨rfl, rfl, rfl, rfl⟩, m4, ⟨rfl, rfl, rfl⟩, hs, ⟨q, ht, rfl⟩, k3, rfl, rfl, rfl, rfl⟩
  · rintro ⟨f, hf, hlf, hv⟩
    rw [hlf] at hl ⊢
    clear hlf l
    obtain ⟨hhead, hlev, hmines, hmark, hst, het, htoB, hbb, hrt, hts, hfirst, hev, hlast, e1, e2, e3, e4, e5, e6, e7⟩ := hf
    obtain ⟨⟨s1, s2, s3, s4⟩, hboard, ⟨t1, t2, t3⟩, vb, ⟨t, vt, vr⟩, vev, o1, o2, o3, o4⟩ := hv
    have hpos : 0 < f.height := by
      rcases hlev with h2 | ⟨-, -, h2⟩
      · simp only [List.mem_cons, Prod.mk.injEq, List.not_mem_nil, or_false] at h2
        omega
      · omega
    obtain ⟨c0, sk, hc0⟩ : ∃ c s, f.head = c :: s := by
      cases hq : f.head with
      | nil => simp [hq] at hhead
      | cons c s => exact ⟨c, s, rfl⟩
    have hb2 : f.first.b2 = 1 := by
      obtain ⟨⟨j, b, c, h1, -⟩, -⟩ := hts
      obtain ⟨j', h2⟩ := hfirst
      have := (List.append_inj' (h1.symm.trans h2) rfl).2
      simp at this
      exact this.2.2.symm
    have hne : f.bytes ++ r ≠ [] := by
      rw [AvfFile.bytes, List.flatten_cons, hc0]
      exact List.cons_ne_nil _ _
    unfold parseAvf
    rw [if_neg hne]
    simp only [AvfFile.bytes, List.flatten_cons, List.flatten_nil, List.append_assoc, hc0, List.cons_append, List.nil_append]
    refine bind_ok.mpr ⟨_, _, u8_ok.mpr rfl, ?_⟩
    refine bind_ok.mpr ⟨(), _, skip_ok.mpr ⟨sk, by rw [hc0] at hhead; simpa using hhead, rfl⟩, ?_⟩
    have hl' : ∀ b ∈ f.sizeBytes ++ (f.bytes.drop (5 + f.sizeBytes.length) ++ r), b < 256 := by
      have : ∀ b ∈ f.bytes ++ r, b < 256 := hl
      intro b hb
      apply this
      simp only [List.mem_append] at hb ⊢
      rcases hb with hb | hb | hb
      · left; rw [AvfFile.bytes, List.mem_flatten]; exact ⟨_, List.mem_cons_of_mem _ List.mem_cons_self, hb⟩
      · left; exact List.mem_of_mem_drop hb
      · exact .inr hb
    have hd : ∀ rest, avfSize (f.sizeBytes ++ rest) = .ok ((f.level, f.width, f.height, f.mineNum), rest) := by
      intro rest
      have h0 := (avfSize_ok (f.sizeBytes ++ []) [] f.level f.width f.height f.mineNum (by
        intro b hb
        simp only [List.append_nil] at hb
        exact hl' b (by simp [hb]))).mpr ⟨hlev, rfl⟩
      have := (stable_avfSize (f.sizeBytes ++ []) rest).1 _ _ h0
      simpa using this
    refine bind_ok.mpr ⟨_, _, hd _, ?_⟩
    obtain ⟨b0, g1, g2⟩ := (avfMines_boardOf hpos _ _ v.board).mpr ⟨f.mines, hmines.1, hmines.2, rfl, hboard⟩
    refine bind_ok.mpr ⟨_, _, g1, ?_⟩
    refine bind_ok.mpr ⟨(), _, avfMark_shortest.mpr ⟨f.mark, rfl, hmark⟩, ?_⟩
    refine bind_ok.mpr ⟨_, _, upTo_ok.mpr ⟨hst, rfl⟩, ?_⟩
    simp only [List.cons_append, List.nil_append]
    refine bind_ok.mpr ⟨_, _, upTo_ok.mpr ⟨het, rfl⟩, ?_⟩
    refine bind_ok.mpr ⟨(), _, avfB_shortest.mpr ⟨f.toB, rfl, htoB⟩, ?_⟩
    refine bind_ok.mpr ⟨_, _, upTo_ok.mpr ⟨hbb, rfl⟩, ?_⟩
    rw [vb]
    refine bind_ok.mpr ⟨_, _, upTo_ok.mpr ⟨hrt, rfl⟩, ?_⟩
    have vt' : parseF64 (f.rtime.map fun c => if c = 44 then 46 else c) = some t := vt
    simp only [vt']
    refine bind_ok.mpr ⟨_, _, avfStart_shortest.mpr ⟨f.toStart, rfl, hts, by rw [← hb2]; exact hfirst⟩, ?_⟩
    refine bind_ok.mpr ⟨_, _, u8_ok.mpr rfl, bind_ok.mpr ⟨_, _, u8_ok.mpr rfl, bind_ok.mpr ⟨_, _, u8_ok.mpr rfl,
      bind_ok.mpr ⟨_, _, u8_ok.mpr rfl, bind_ok.mpr ⟨_, _, u8_ok.mpr rfl, ?_⟩⟩⟩⟩⟩
    have hfb : (⟨f.first.b0, f.first.b1, 1, f.first.b3, f.first.b4, f.first.b5, f.first.b6, f.first.b7⟩ : Buf8) = f.first := by
      rw [← hb2]
    rw [hfb]
    refine bind_ok.mpr ⟨_, _, (avfEvents_ok f.first _ _ _).mpr ⟨f.events, f.last, (List.append_assoc _ _ _).symm, hev, hlast, vev⟩, ?_⟩
    refine bind_ok.mpr ⟨_, _, upTo_ok.mpr ⟨e1, rfl⟩, bind_ok.mpr ⟨_, _, upTo_ok.mpr ⟨e2, rfl⟩, bind_ok.mpr ⟨_, _,
      upTo_ok.mpr ⟨e3, rfl⟩, bind_ok.mpr ⟨_, _, upTo_ok.mpr ⟨e4, rfl⟩, bind_ok.mpr ⟨_, _, upTo_ok.mpr ⟨e5, rfl⟩,
      bind_ok.mpr ⟨_, _, upTo_ok.mpr ⟨e6, rfl⟩, bind_ok.mpr ⟨_, _, upTo_ok.mpr ⟨e7, rfl⟩, ?_⟩⟩⟩⟩⟩⟩⟩
    rw [pure_ok]
    refine ⟨?_, rfl⟩
    rw [g2]
    obtain ⟨a1, a2, a3, a4, a5, a6, a7, a8, a9, a10, a11, a12, a13, a14, a15⟩ := v
    simp only at *
    subst s1 s2 s3 s4 t1 t2 t3 vr o1 o2 o3 o4
    rfl

end Ms.Vid
