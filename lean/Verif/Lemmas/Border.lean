import Verif.Lemmas.Guess

namespace Ms
open Spec

variable {r c : Nat} {g m : Board}

theorem beside_iff (hg : Rect g r c) (hr : 0 < r) {p : Pos} :
    besideNumber g p = true ↔ ∃ q ∈ block r c p.1 p.2, g.get q.1 q.2 < 10 := by
  have hd := rect_dims hg hr
  unfold besideNumber
  rw [hd.1, hd.2, List.any_eq_true]
  simp

theorem MarkOf.beside {w : Int} (hm : MarkOf r c w g m) (hg : Rect g r c) (hr : 0 < r) (hw : ¬ w < 10) {p : Pos} :
    besideNumber m p = besideNumber g p := by
  rw [Bool.eq_iff_iff, beside_iff hm.rect hr, beside_iff hg hr]
  constructor
  · rintro ⟨q, hq, h⟩
    have := mem_block_lt hq
    exact ⟨q, hq, hm.lt10 hw this.1 this.2 h⟩
  · rintro ⟨q, hq, h⟩
    have := mem_block_lt hq
    refine ⟨q, hq, ?_⟩
    rcases hm.val q this.1 this.2 with e | ⟨e, -⟩
    · rw [e]; exact h
    · omega

/-- Visited cells. -/
def Visited (r c : Nat) (g m : Board) (p : Pos) : Prop := p.1 < r ∧ p.2 < c ∧ g.get p.1 p.2 = 10 ∧ m.get p.1 p.2 = 100

/-- What the inner loops leave. -/
structure ScanOK (r c : Nat) (g : Board) (t : Pos) (l : List Pos) (m : Board) (buf : List Pos) (m' : Board)
    (buf' : List Pos) : Prop where
  mark : MarkOf r c 100 g m'
  meas : buf'.length + count10 r c m' = buf.length + count10 r c m
  mono : ∀ x, Visited r c g m x → Visited r c g m' x
  new : ∀ x, Visited r c g m' x → Visited r c g m x ∨ (x ∈ l ∧ x ∈ buf' ∧ besideNumber g x = false)
  keep : ∀ x ∈ buf, x ∈ buf'
  buf : ∀ x ∈ buf', x ∈ buf ∨ Visited r c g m' x
  all : ∀ x ∈ l, x ≠ t → g.get x.1 x.2 = 10 → Visited r c g m' x

theorem borderScan_spec (hg : Rect g r c) (hr : 0 < r) (t : Pos) : ∀ (l : List Pos), (∀ q ∈ l, q.1 < r ∧ q.2 < c) →
    ∀ (m : Board) (buf : List Pos), MarkOf r c 100 g m →
    (∃ q, borderScan t l (m, buf) = .inl q ∧ q ∈ l ∧ BorderCell r c g q) ∨
    (∃ m' buf', borderScan t l (m, buf) = .inr (m', buf') ∧ ScanOK r c g t l m buf m' buf') := by
  intro l
  induction l with
  | nil =>
    intro _ m buf hm
    exact .inr ⟨m, buf, rfl, hm, rfl, fun _ h => h, fun _ h => .inl h, fun _ h => h, fun _ h => .inl h, by simp⟩
  | cons q l ih =>
    intro hl m buf hm
    have hq := hl q (by simp)
    rw [borderScan]
    simp only
    by_cases h1 : q ≠ t ∧ m.get q.1 q.2 = 10
    · rw [if_pos h1]
      rw [hm.beside hg hr (by decide)]
      have hg10 := hm.eq10 hq.1 hq.2 h1.2
      by_cases h2 : besideNumber g q = true
      · rw [if_pos h2]
        exact .inl ⟨q, rfl, by simp, hq.1, hq.2, hg10, (beside_iff hg hr).mp h2⟩
      · rw [if_neg h2]
        have hms := hm.set hq.1 hq.2 h1.2 (by decide)
        rcases ih (fun q hq => hl q (by simp [hq])) (m.set q.1 q.2 100) (q :: buf) hms with ⟨x, e1, e2, e3⟩ | ⟨m', buf', e, h⟩
        · exact .inl ⟨x, e1, by simp [e2], e3⟩
        · refine .inr ⟨m', buf', e, ?_⟩
          have hv : ∀ x, Visited r c g (m.set q.1 q.2 100) x ↔ Visited r c g m x ∨ x = q := by
            intro x
            unfold Visited
            rw [get_set hm.rect hq.1 hq.2]
            constructor
            · rintro ⟨a, b, d, e⟩
              split at e
              · rename_i he; exact .inr (Prod.ext he.1 he.2)
              · exact .inl ⟨a, b, d, e⟩
            · rintro (⟨a, b, d, e⟩ | rfl)
              · refine ⟨a, b, d, ?_⟩
                split
                · rfl
                · exact e
              · exact ⟨hq.1, hq.2, hg10, by simp⟩
          refine ⟨h.mark, ?_, fun x hx => h.mono x ((hv x).mpr (.inl hx)), fun x hx => ?_, fun x hx => h.keep x (by simp [hx]),
            fun x hx => ?_, fun x hx hxt hx10 => ?_⟩
          · have := h.meas
            have := count10_set (w := 100) hm.rect hq.1 hq.2 h1.2 (by decide)
            rw [List.length_cons] at *
            omega
          · rcases h.new x hx with h3 | ⟨h3, h4, h5⟩
            · rcases (hv x).mp h3 with h3 | rfl
              · exact .inl h3
              · exact .inr ⟨by simp, h.keep x (by simp), by simpa using h2⟩
            · exact .inr ⟨by simp [h3], h4, h5⟩
          · rcases h.buf x hx with h3 | h3
            · rcases List.mem_cons.mp h3 with rfl | h3
              · exact .inr (h.mono x ((hv x).mpr (.inr rfl)))
              · exact .inl h3
            · exact .inr h3
          · rcases List.mem_cons.mp hx with rfl | hx
            · exact h.mono x ((hv x).mpr (.inr rfl))
            · exact h.all x hx hxt hx10
    · rw [if_neg h1]
      rcases ih (fun q hq => hl q (by simp [hq])) m buf hm with ⟨x, e1, e2, e3⟩ | ⟨m', buf', e, h⟩
      · exact .inl ⟨x, e1, by simp [e2], e3⟩
      · refine .inr ⟨m', buf', e, h.mark, h.meas, h.mono, fun x hx => ?_, h.keep, h.buf, fun x hx hxt hx10 => ?_⟩
        · exact (h.new x hx).imp id fun ⟨a, b⟩ => ⟨by simp [a], b⟩
        · rcases List.mem_cons.mp hx with rfl | hx
          · refine h.mono x ⟨hq.1, hq.2, hx10, ?_⟩
            rcases hm.val x hq.1 hq.2 with e | ⟨-, e⟩
            · exact absurd ⟨hxt, e.trans hx10⟩ h1
            · exact e
          · exact h.all x hx hxt hx10

/-- The invariant of the search. -/
structure BorderInv (r c : Nat) (g : Board) (p : Pos) (m : Board) (buf : List Pos) : Prop where
  mark : MarkOf r c 100 g m
  start : Visited r c g m p
  inbuf : ∀ x ∈ buf, Visited r c g m x
  reach : ∀ x, Visited r c g m x → Region g p x
  inner : ∀ x, Visited r c g m x → besideNumber g x = false
  closed : ∀ x, Visited r c g m x → x ∉ buf → ∀ y ∈ block r c x.1 x.2, g.get y.1 y.2 = 10 → Visited r c g m y

theorem borderLoop_spec (hg : Rect g r c) (hr : 0 < r) {p : Pos} : ∀ (fuel : Nat) (m : Board) (buf : List Pos),
    BorderInv r c g p m buf → buf.length + count10 r c m < fuel →
    (∃ q, borderLoop fuel (m, buf) = some (some q) ∧ BorderCell r c g q ∧ Region g p q) ∨
    (borderLoop fuel (m, buf) = some none ∧ ∀ q, Region g p q → besideNumber g q = false) := by
  have hdg := rect_dims hg hr
  intro fuel
  induction fuel with
  | zero => intro m buf _ h; omega
  | succ fuel ih =>
    intro m buf hI hf
    cases buf with
    | nil =>
      refine .inr ⟨rfl, fun q hq => hI.inner q ?_⟩
      induction hq with
      | refl => exact hI.start
      | tail h1 h2 ih2 =>
        rename_i a b
        have hb := h2.2
        have hbg := hb.1
        rw [hdg.1, hdg.2, mem_grid] at hbg
        refine hI.closed a ih2 (by simp) b ?_ hb.2
        have hn := h2.1
        exact mem_block'.mpr ⟨hbg.1, hbg.2, hn.2.1, hn.1, hn.2.2.2, hn.2.2.1⟩
    | cons t buf =>
      have hd := rect_dims hI.mark.rect hr
      have ht := hI.inbuf t (by simp)
      rw [borderLoop, hd.1, hd.2]
      have hreach : ∀ x ∈ block r c t.1 t.2, g.get x.1 x.2 = 10 → Region g p x := by
        intro x hx hx10
        have hb := mem_block'.mp hx
        refine (hI.reach t ht).tail ⟨⟨hb.2.2.2.1, hb.2.2.1, hb.2.2.2.2.2, hb.2.2.2.2.1⟩, ?_, hx10⟩
        rw [hdg.1, hdg.2, mem_grid]; exact ⟨hb.1, hb.2.1⟩
      rcases borderScan_spec hg hr t (block r c t.1 t.2) (fun q hq => mem_block_lt hq) m buf hI.mark with
        ⟨q, e1, e2, e3⟩ | ⟨m', buf', e, h⟩
      · rw [e1]
        exact .inl ⟨q, rfl, e3, hreach q e2 e3.2.2.1⟩
      · rw [e]
        refine ih m' buf' ⟨h.mark, h.mono p hI.start, ?_, ?_, ?_, ?_⟩ ?_
        · intro x hx
          rcases h.buf x hx with h1 | h1
          · exact h.mono x (hI.inbuf x (by simp [h1]))
          · exact h1
        · intro x hx
          rcases h.new x hx with h1 | ⟨h1, -, -⟩
          · exact hI.reach x h1
          · exact hreach x h1 hx.2.2.1
        · intro x hx
          rcases h.new x hx with h1 | ⟨-, -, h1⟩
          · exact hI.inner x h1
          · exact h1
        · intro x hx hxb y hy hy10
          rcases h.new x hx with h1 | ⟨-, h1, -⟩
          · by_cases hxt : x = t
            · subst hxt
              by_cases hyx : y = x
              · subst hyx; exact hx
              · exact h.all y hy hyx hy10
            · have : x ∉ t :: buf := by
                intro hc
                rcases List.mem_cons.mp hc with hc | hc
                · exact hxt hc
                · exact hxb (h.keep x hc)
              exact h.mono y (hI.closed x h1 this y hy hy10)
          · exact absurd h1 hxb
        · have := h.meas
          rw [List.length_cons] at hf
          omega

/-- `find_a_border_cell` on a covered cell. -/
theorem findBorderCell_spec (hg : Rect g r c) (hr : 0 < r) {p : Pos} (h1 : p.1 < r) (h2 : p.2 < c) (hp : g.get p.1 p.2 = 10) :
    (findBorderCell g p = some (some p, true) ∧ BorderCell r c g p) ∨
    (∃ q, findBorderCell g p = some (some q, false) ∧ ¬ BorderCell r c g p ∧ BorderCell r c g q ∧ Region g p q) ∨
    (findBorderCell g p = some (none, false) ∧ ¬ BorderCell r c g p ∧ ∀ q, Region g p q → ¬ BorderCell r c g q) := by
  have hd := rect_dims hg hr
  unfold findBorderCell
  by_cases hb : besideNumber g p = true
  · rw [if_pos hb]
    exact .inl ⟨rfl, h1, h2, hp, (beside_iff hg hr).mp hb⟩
  · rw [if_neg hb, hd.1, hd.2]
    have hnb : ∀ q, besideNumber g q = false → ¬ BorderCell r c g q := by
      intro q hq hB
      rw [(beside_iff hg hr).mpr hB.2.2.2] at hq
      simp at hq
    have hv : ∀ x, Visited r c g (g.set p.1 p.2 100) x → x = p := by
      rintro x ⟨a, b, d, e⟩
      rw [get_set hg h1 h2] at e
      split at e
      · rename_i he; exact Prod.ext he.1 he.2
      · rw [d] at e; simp at e
    have hvp : Visited r c g (g.set p.1 p.2 100) p := ⟨h1, h2, hp, by rw [get_set hg h1 h2]; simp⟩
    have hI : BorderInv r c g p (g.set p.1 p.2 100) [p] := by
      refine ⟨(MarkOf.refl hg).set h1 h2 hp (by decide), hvp, ?_, ?_, ?_, ?_⟩
      · intro x hx; rw [List.mem_singleton.mp hx]; exact hvp
      · intro x hx; rw [hv x hx]; exact .refl
      · intro x hx; rw [hv x hx]; simpa using hb
      · intro x hx hxb; exact absurd (List.mem_singleton.mpr (hv x hx)) hxb
    rcases borderLoop_spec hg hr (r * c + 2) _ _ hI (by
      have := count10_le r c (g.set p.1 p.2 100)
      simp only [List.length_singleton]; omega) with ⟨q, e1, e2, e3⟩ | ⟨e1, e2⟩
    · refine .inr (.inl ⟨q, by rw [e1]; rfl, hnb p (by simpa using hb), e2, e3⟩)
    · exact .inr (.inr ⟨by rw [e1]; rfl, hnb p (by simpa using hb), fun q hq => hnb q (e2 q hq)⟩)

end Ms
