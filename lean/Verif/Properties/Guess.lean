import Verif.Lemmas.GuessChain
import Verif.Properties.Mark
import Verif.Properties.Rounds
import Verif.Lemmas.RoundsGroup

/-! # C44: is_guess_while_needless -/

namespace Ms.Properties
open Ms Ms.Spec

/-- The possible outcomes of `is_guess_while_needless`: 5 on an open cell; 2 on a covered cell whose region has no cell
next to a number; otherwise the answer is about a cell `q` next to a number (`q = p` if `p` is one), for whose group the
solvers report the safe cells `N` and the mines `I`. -/
theorem isGuess_cases {g : Board} {r c : Nat} (hrect : Rect g r c) (hr : 0 < r)
    (hnn : ∀ p : Pos, p.1 < r → p.2 < c → 0 ≤ g.get p.1 p.2) (hcons : ∃ σ, Consistent (unmark g) σ)
    {p : Pos} (hp1 : p.1 < r) (hp2 : p.2 < c) :
    ∃ a g', isGuess g p = some (a, g') ∧
      ((a = 5 ∧ (unmark g).get p.1 p.2 < 10) ∨
       (IsCovered (unmark g) p ∧ a = 2 ∧ ∀ q, Region (unmark g) p q → ¬ Frontier (unmark g) q) ∨
       (IsCovered (unmark g) p ∧ ∃ (q : Pos) (border : Bool), Frontier (unmark g) q ∧ Region (unmark g) p q ∧
         (border = true → q = p) ∧ (border = false → ¬ Frontier (unmark g) p) ∧
         ∃ N I : List Pos, (∀ x ∈ N, Frontier (unmark g) x ∧ Certain (unmark g) x false) ∧
           (∀ x ∈ I, Frontier (unmark g) x ∧ Certain (unmark g) x true) ∧
           (FewFrontier (unmark g) →
             (∀ x, SharesNumbers (unmark g) q x → Certain (unmark g) x false → x ∈ N) ∧
             (Certain (unmark g) q true → q ∉ I → ∃ y, y ≠ q ∧ Frontier (unmark g) y ∧ Certain (unmark g) y true)) ∧
           (∀ σ, Consistent (unmark g) σ → ∀ x, SharesNumbers (unmark g) q x →
             (x ∈ quick σ (numbersOf (unmark g)) → (σ x = false → x ∈ N) ∧ (σ x = true → x ∈ I)) ∧
             (SmallKnots (numbersOf (unmark g)) (quick σ (numbersOf (unmark g))) →
               (x ∈ N ↔ Certain (unmark g) x false) ∧ (x ∈ I ↔ x ∈ quick σ (numbersOf (unmark g)) ∧ σ x = true ∨
                 EngineMine (unmark g) (quick σ (numbersOf (unmark g))) x))) ∧
           ((a = 1 ∧ border = true ∧ q ∈ N) ∨ (a = 4 ∧ q ∈ I) ∨ (a = 2 ∧ N = [] ∧ q ∉ I) ∨
            (a = 3 ∧ N ≠ [] ∧ (border = true → q ∉ N ∧ q ∉ I))))) := by
  obtain ⟨hu, hug⟩ := unmark_spec g r c hrect
  have hnnu : ∀ p : Pos, p.1 < r → p.2 < c → 0 ≤ (unmark g).get p.1 p.2 := by
    intro p h1 h2
    rw [hug p h1 h2]
    have := hnn p h1 h2
    split <;> omega
  have hle : ∀ p : Pos, p.1 < r → p.2 < c → (unmark g).get p.1 p.2 ≤ 10 := by
    intro p h1 h2
    rw [hug p h1 h2]
    split <;> omega
  have hd := rect_dims hu hr
  generalize hg0 : unmark g = g0 at *
  obtain ⟨S, s1, s2⟩ := sysFor_of_consistent (r := r) (c := c) hcons
  obtain ⟨S', s1', s3⟩ := refreshMatrixs_spec g0
  rw [s1] at s1'
  obtain rfl := Option.some.inj s1'
  have hsat : ∃ σ, Solves σ S := hcons.imp fun σ hσ => (s2.solves σ).mpr hσ
  obtain ⟨Ts, t1, t2⟩ := refreshMatrixses_spec hu hr hnnu s1 s2.shape
  have hbf : ∀ q, BorderCell r c g0 q ↔ Frontier g0 q := by
    intro q
    constructor
    · rintro ⟨h1, h2, h3, x, hx, h4⟩
      have hb := mem_block'.mp hx
      exact ⟨⟨by rw [hd.1, hd.2]; exact mem_grid.mpr ⟨h1, h2⟩, h3⟩, x,
        ⟨by rw [hd.1, hd.2]; exact mem_grid.mpr ⟨hb.1, hb.2.1⟩, hnnu x hb.1 hb.2.1, h4⟩,
        ⟨hb.2.2.1, hb.2.2.2.1, hb.2.2.2.2.1, hb.2.2.2.2.2⟩⟩
    · rintro ⟨⟨h1, h2⟩, x, ⟨h3, -, h4⟩, hn⟩
      rw [hd.1, hd.2, mem_grid] at h1 h3
      exact ⟨h1.1, h1.2, h2, x, mem_block'.mpr ⟨h3.1, h3.2, hn.1, hn.2.1, hn.2.2.1, hn.2.2.2⟩, h4⟩
  have hOn : OnBoard S r c := by
    intro q hq
    have := ((s2.cells q).mp hq).1.1
    rw [hd.1, hd.2, mem_grid] at this
    exact this
  by_cases h5 : g0.get p.1 p.2 < 10
  · refine ⟨5, g0, ?_, .inl ⟨rfl, h5⟩⟩
    unfold isGuess
    simp only [hg0, hd.1, hd.2, hp1, hp2, and_self, not_true, if_false, h5, if_true]
    rfl
  have hp10 : g0.get p.1 p.2 = 10 := by have := hle p hp1 hp2; omega
  have hcov : IsCovered g0 p := ⟨by rw [hd.1, hd.2]; exact mem_grid.mpr ⟨hp1, hp2⟩, hp10⟩
  have hstart : ∀ {ans}, isGuess g p = ans ↔ (findBorderCell g0 p).bind (fun qb =>
      match qb with
      | (none, _) => some (2, g0)
      | (some q, border) => do
        let T ← Ts.find? fun T => T.any fun B => B.x.contains q
        let o ← solveDirect T g0
        match o.res with
        | .error _ => none
        | .ok (n, _) =>
          if border = false ∧ n ≠ [] then return (3, o.board)
          if o.board.get q.1 q.2 = 12 then return (1, o.board)
          if o.board.get q.1 q.2 = 11 then return (4, o.board)
          let o2 ← solveMinus o.sys o.board
          match o2.res with
          | .error _ => none
          | .ok (n2, _) =>
            if border = false ∧ n2 ≠ [] then return (3, o2.board)
            if o2.board.get q.1 q.2 = 12 then return (1, o2.board)
            if o2.board.get q.1 q.2 = 11 then return (4, o2.board)
            let (n3, i3) ← solveEnumerate o2.sys
            if border = false ∧ n3 ≠ [] then return (3, o2.board)
            if n3.contains q then return (1, o2.board)
            if i3.contains q then return (4, o2.board)
            if n = [] ∧ n2 = [] ∧ n3 = [] then return (2, o2.board)
            return (3, o2.board)) = ans := by
    intro ans
    unfold isGuess
    simp only [hg0, hd.1, hd.2, hp1, hp2, and_self, not_true, if_false, h5, t1, Option.bind_eq_bind, Option.bind_some]
    rfl
  -- the two cases with a cell next to a number
  have main : ∀ (q : Pos) (border : Bool), findBorderCell g0 p = some (some q, border) → Frontier g0 q → Region g0 p q →
      (border = true → q = p) → (border = false → ¬ Frontier g0 p) →
      ∃ a g', isGuess g p = some (a, g') ∧ ∃ N I : List Pos, (∀ x ∈ N, Frontier g0 x ∧ Certain g0 x false) ∧
           (∀ x ∈ I, Frontier g0 x ∧ Certain g0 x true) ∧
           (FewFrontier g0 →
             (∀ x, SharesNumbers g0 q x → Certain g0 x false → x ∈ N) ∧
             (Certain g0 q true → q ∉ I → ∃ y, y ≠ q ∧ Frontier g0 y ∧ Certain g0 y true)) ∧
           (∀ σ, Consistent g0 σ → ∀ x, SharesNumbers g0 q x →
             (x ∈ quick σ (numbersOf g0) → (σ x = false → x ∈ N) ∧ (σ x = true → x ∈ I)) ∧
             (SmallKnots (numbersOf g0) (quick σ (numbersOf g0)) →
               (x ∈ N ↔ Certain g0 x false) ∧ (x ∈ I ↔ x ∈ quick σ (numbersOf g0) ∧ σ x = true ∨
                 EngineMine g0 (quick σ (numbersOf g0)) x))) ∧
           ((a = 1 ∧ border = true ∧ q ∈ N) ∨ (a = 4 ∧ q ∈ I) ∨ (a = 2 ∧ N = [] ∧ q ∉ I) ∨
            (a = 3 ∧ N ≠ [] ∧ (border = true → q ∉ N ∧ q ∉ I))) := by
    intro q border hfb hqf hreg hbt hbf'
    have hqS : q ∈ sysCells S := (s2.cells q).mpr hqf
    -- the group
    have hfind : ∃ T, Ts.find? (fun T => T.any fun B => B.x.contains q) = some T ∧ T ∈ Ts ∧ q ∈ sysCells T := by
      obtain ⟨B, hB, hqB⟩ := mem_sysCells.mp (t2.perm.mem_iff.mpr hqS)
      obtain ⟨T, hT, hBT⟩ := List.mem_flatten.mp hB
      cases hf : Ts.find? (fun T => T.any fun B => B.x.contains q) with
      | none =>
        have := List.find?_eq_none.mp hf T hT
        exact absurd (List.any_eq_true.mpr ⟨B, hBT, by simpa using hqB⟩) this
      | some T' =>
        have h1 := List.find?_some hf
        obtain ⟨B', hB', h2⟩ := List.any_eq_true.mp h1
        exact ⟨T', rfl, List.mem_of_find?_eq_some hf, mem_sysCells.mpr ⟨B', hB', by simpa using h2⟩⟩
    obtain ⟨T, hT1, hT2, hqT⟩ := hfind
    have hG := t2.group s2.shape hOn hT2
    obtain ⟨o, n, i, o2, n2, i2, n3, i3, c1, c2, c3, c4, c5, c6, c7, c8, c9, c10, c11⟩ := group_chain hu hG hsat
    have hTS : ∀ x ∈ sysCells T, Frontier g0 x := by
      intro x hx
      obtain ⟨B, -, hBS, hxB⟩ := hG.mem hx
      exact (s2.cells x).mp (mem_sysCells.mpr ⟨B, hBS, hxB⟩)
    have hsub : ∀ {x}, x ∈ sysCells o2.sys → x ∈ sysCells T := fun hx => c6.perm.mem_iff.mpr (by simp [hx])
    have hST : ∀ σ, Consistent g0 σ → Solves σ T := fun σ hσ => hG.solves ((s2.solves σ).mpr hσ)
    have hN : ∀ x ∈ n ++ n2 ++ n3, Frontier g0 x ∧ Certain g0 x false := by
      intro x hx
      rcases List.mem_append.mp hx with hx | hx
      · exact ⟨hTS x (c6.mem_n hx), fun σ hσ => ((c6.equiv σ).mp (hST σ hσ)).2.1 x hx⟩
      · exact ⟨hTS x (hsub (c9 x hx).1), fun σ hσ => (c9 x hx).2 σ ((c6.equiv σ).mp (hST σ hσ)).1⟩
    have hI : ∀ x ∈ i ++ i2 ++ i3, Frontier g0 x ∧ Certain g0 x true := by
      intro x hx
      rcases List.mem_append.mp hx with hx | hx
      · exact ⟨hTS x (c6.mem_i hx), fun σ hσ => ((c6.equiv σ).mp (hST σ hσ)).2.2 x hx⟩
      · exact ⟨hTS x (hsub (c10 x hx).1), fun σ hσ => (c10 x hx).2 σ ((c6.equiv σ).mp (hST σ hσ)).1⟩
    have hTsat : ∃ σ, Solves σ T := hsat.imp fun σ hσ => hG.solves hσ
    have hforced : ∀ {x b}, x ∈ sysCells o2.sys → Certain g0 x b → ∀ σ, Solves σ o2.sys → σ x = b := by
      intro x b hx hc
      rw [c6.forced hG.good.nodup hTsat hx b, hG.forced s2.good.nodup hsat (hsub hx) b]
      exact fun σ hσ => hc σ ((s2.solves σ).mp hσ)
    have hn2 := List.nodup_append.mp (c6.perm.nodup_iff.mp hG.good.nodup)
    have hfew : FewFrontier g0 →
             (∀ x, SharesNumbers g0 q x → Certain g0 x false → x ∈ n ++ n2 ++ n3) ∧
             (Certain g0 q true → q ∉ i ++ i2 ++ i3 → ∃ y, y ≠ q ∧ Frontier g0 y ∧ Certain g0 y true) := by
      intro hfew
      have hlim : ∀ B ∈ o2.sys, B.x.length ≤ ENUM_LIMIT := by
        intro B hB
        refine hfew B.x ?_ fun x hx => hTS x (hsub (mem_sysCells.mpr ⟨B, hB, hx⟩))
        have := hn2.2.1
        unfold sysCells at this
        rw [List.nodup_flatMap] at this
        exact this.1 B hB
      obtain ⟨d1, d2⟩ := c11 hlim
      refine ⟨fun x hx hc => ?_, fun hc hqI => ?_⟩
      · have hxT : x ∈ sysCells T := by
          refine hG.linked s2.good.nodup ?_ hqf.1 hqT hx
          intro m hm hex
          obtain ⟨B, hB, hall⟩ := s3.linked m (mem_numberCells.mpr ⟨hm, hex⟩)
          exact ⟨B, hB, fun y hy1 hy2 => hall y (mem_unknownsOf.mpr ⟨hy1, hy2⟩)⟩
        have := c6.perm.mem_iff.mp hxT
        rw [List.mem_append, List.mem_append] at this
        rcases this with (h | h) | h
        · exact List.mem_append.mpr (.inl h)
        · obtain ⟨σ, hσ⟩ := hcons
          have e1 := ((c6.equiv σ).mp (hST σ hσ)).2.2 x h
          rw [hc σ hσ] at e1
          simp at e1
        · exact List.mem_append.mpr (.inr ((d1 x).mpr ⟨h, hforced h hc⟩))
      · rw [List.mem_append, not_or] at hqI
        have := c6.perm.mem_iff.mp hqT
        rw [List.mem_append, List.mem_append] at this
        have hq2 : q ∈ sysCells o2.sys := by
          rcases this with (h | h) | h
          · obtain ⟨σ, hσ⟩ := hcons
            have e1 := ((c6.equiv σ).mp (hST σ hσ)).2.1 q h
            rw [hc σ hσ] at e1
            simp at e1
          · exact absurd h hqI.1
          · exact h
        have hf := hforced hq2 hc
        have ht : ∃ B ∈ o2.sys, HasTwin B q := by
          by_contra hno
          push Not at hno
          exact hqI.2 ((d2 q).mpr ⟨hq2, hno, hf⟩)
        obtain ⟨B, hB, ht⟩ := ht
        have hqB : q ∈ B.x := by
          obtain ⟨a, b, ha, -, -, rfl, -⟩ := ht
          exact getD_mem_of_lt _ ha
        have hBn : B.x.Nodup := by
          have := hn2.2.1
          unfold sysCells at this
          rw [List.nodup_flatMap] at this
          exact this.1 B hB
        obtain ⟨y, hy, hyq, -, hyf⟩ := twin_forced (c6.ok.good.rect B hB) hBn ht
          ((forced_iff hn2.2.1 c8 hB hqB true).mpr hf)
        have hy2 : y ∈ sysCells o2.sys := mem_sysCells.mpr ⟨B, hB, hy⟩
        have hyf2 := (forced_iff hn2.2.1 c8 hB hy true).mp hyf
        exact ⟨y, hyq, hTS y (hsub hy2), fun σ hσ => hyf2 σ ((c6.equiv σ).mp (hST σ hσ)).1⟩
    have hexact : ∀ σ, Consistent g0 σ → ∀ x, SharesNumbers g0 q x →
             (x ∈ quick σ (numbersOf g0) → (σ x = false → x ∈ n ++ n2 ++ n3) ∧ (σ x = true → x ∈ i ++ i2 ++ i3)) ∧
             (SmallKnots (numbersOf g0) (quick σ (numbersOf g0)) →
               (x ∈ n ++ n2 ++ n3 ↔ Certain g0 x false) ∧ (x ∈ i ++ i2 ++ i3 ↔ x ∈ quick σ (numbersOf g0) ∧ σ x = true ∨
                 EngineMine g0 (quick σ (numbersOf g0)) x)) := by
      intro σ hσ x hx
      have hL0 := Left.refresh s2 s1 hσ
      have hcl := hL0.closed hG
      have hL := hL0.group hG
      have hL1 := (hL.solveDirect c1).1
      have hL2 := (hL1.solveMinus c4).1
      have hC := hL1.minus_conn c4
      have hf := found_iff c6.equiv c6.perm hL hL2 quick_cells
      have hxT : x ∈ sysCells T := by
        refine hG.linked s2.good.nodup ?_ hqf.1 hqT hx
        intro m hm hex
        obtain ⟨B, hB, hall⟩ := s3.linked m (mem_numberCells.mpr ⟨hm, hex⟩)
        exact ⟨B, hB, fun y hy1 hy2 => hall y (mem_unknownsOf.mpr ⟨hy1, hy2⟩)⟩
      have hqw := quick_within (σ := σ) hcl
      have hcertT : ∀ b, x ∈ sysCells o2.sys → ((∀ σ, Solves σ o2.sys → σ x = b) ↔ Certain g0 x b) := by
        intro b hx2
        rw [c6.forced hG.good.nodup hTsat hx2 b, hG.forced s2.good.nodup hsat hxT b]
        exact forall_congr' fun τ => by rw [s2.solves τ]
      have hmem := c6.perm.mem_iff.mp hxT
      rw [List.mem_append, List.mem_append] at hmem
      refine ⟨fun hq => ⟨fun hv => ?_, fun hv => ?_⟩, fun hsm => ?_⟩
      · exact List.mem_append.mpr (.inl ((hf x).1.mpr ⟨(hqw x hxT).mp hq, hv⟩))
      · exact List.mem_append.mpr (.inl ((hf x).2.mpr ⟨(hqw x hxT).mp hq, hv⟩))
      · have hlim := (hL2.small_iff hC).mpr (small_within hcl hqw hsm)
        obtain ⟨d1, d2⟩ := c11 hlim
        refine ⟨⟨fun h => (hN x h).2, fun hc => ?_⟩, ?_⟩
        · rcases hmem with (h | h) | h
          · exact List.mem_append.mpr (.inl h)
          · have := ((hf x).2.mp h).2
            rw [hc σ hσ] at this
            simp at this
          · exact List.mem_append.mpr (.inr ((d1 x).mpr ⟨h, (hcertT _ h).mpr hc⟩))
        · rw [List.mem_append, (hf x).2]
          refine or_congr (and_congr (hqw x hxT).symm Iff.rfl) ?_
          rw [d2 x]
          constructor
          · rintro ⟨a1, a2, a3⟩
            have hu := (hL2.cells x).mp a1
            have hu' := (unknowns_within hcl hqw x hxT).mpr hu
            exact ⟨hsm, hu', (hcertT _ a1).mp a3, fun ht => (hL2.twin_iff a1).mp a2 ((twin_within hcl hqw x hxT hu'.2).mp ht)⟩
          · rintro ⟨-, a1, a3, a2⟩
            have a1' := (hL2.cells x).mpr ((unknowns_within hcl hqw x hxT).mp a1)
            exact ⟨a1', (hL2.twin_iff a1').mpr fun ht => a2 ((twin_within hcl hqw x hxT a1.2).mpr ht), (hcertT _ a1').mpr a3⟩
    have hq10 : g0.get q.1 q.2 = 10 := hqf.1.2
    have hm1 : (o.board.get q.1 q.2 = 12 ↔ q ∈ n) ∧ (o.board.get q.1 q.2 = 11 ↔ q ∈ i) := by
      have hnd := (List.nodup_append.mp (List.nodup_append.mp (c3.perm.nodup_iff.mp hG.good.nodup)).1).2.2
      rw [c3.marked q.1 q.2]
      by_cases a : q ∈ i
      · have : q ∉ n := fun h => hnd q h q a rfl
        simp [a, this]
      · by_cases b : q ∈ n
        · simp [a, b]
        · simp [a, b, hq10]
    have hm2 : (o2.board.get q.1 q.2 = 12 ↔ q ∈ n ++ n2) ∧ (o2.board.get q.1 q.2 = 11 ↔ q ∈ i ++ i2) := by
      have hnd := (List.nodup_append.mp hn2.1).2.2
      have := c6.marked q.1 q.2
      by_cases a : q ∈ i ++ i2
      · have hb : q ∉ n ++ n2 := fun h => hnd q h q a rfl
        rw [if_pos a] at this
        rw [this]
        simp only [a, hb]
        simp
      · rw [if_neg a] at this
        by_cases b : q ∈ n ++ n2
        · rw [if_pos b] at this
          rw [this]
          simp only [a, b]
          simp
        · rw [if_neg b, hq10] at this
          rw [this]
          simp only [a, b]
          simp
    suffices hfin : ∃ a g', isGuess g p = some (a, g') ∧
        ((a = 1 ∧ border = true ∧ q ∈ n ++ n2 ++ n3) ∨ (a = 4 ∧ q ∈ i ++ i2 ++ i3) ∨
          (a = 2 ∧ n ++ n2 ++ n3 = [] ∧ q ∉ i ++ i2 ++ i3) ∨
          (a = 3 ∧ n ++ n2 ++ n3 ≠ [] ∧ (border = true → q ∉ n ++ n2 ++ n3 ∧ q ∉ i ++ i2 ++ i3))) by
      obtain ⟨a, g', e1, e2⟩ := hfin
      exact ⟨a, g', e1, _, _, hN, hI, hfew, hexact, e2⟩
    simp only [hstart, hfb, Option.bind_some, hT1, c1, c2, c4, c5, c7, Option.bind_eq_bind, hm1.1, hm1.2, hm2.1, hm2.2]
    by_cases k1 : border = false ∧ n ≠ []
    · rw [if_pos k1]
      exact ⟨3, _, rfl, .inr (.inr (.inr ⟨rfl, by simp [k1.2], fun h => by rw [k1.1] at h; simp at h⟩))⟩
    rw [if_neg k1]
    by_cases k2 : q ∈ n
    · rw [if_pos k2]
      refine ⟨1, _, rfl, .inl ⟨rfl, ?_, by simp [k2]⟩⟩
      by_contra hb
      exact k1 ⟨by simpa using hb, List.ne_nil_of_mem k2⟩
    rw [if_neg k2]
    by_cases k3 : q ∈ i
    · rw [if_pos k3]
      exact ⟨4, _, rfl, .inr (.inl ⟨rfl, by simp [k3]⟩)⟩
    rw [if_neg k3]
    by_cases k4 : border = false ∧ n2 ≠ []
    · rw [if_pos k4]
      exact ⟨3, _, rfl, .inr (.inr (.inr ⟨rfl, by simp [k4.2], fun h => by rw [k4.1] at h; simp at h⟩))⟩
    rw [if_neg k4]
    by_cases k5 : q ∈ n ++ n2
    · rw [if_pos k5]
      refine ⟨1, _, rfl, .inl ⟨rfl, ?_, List.mem_append.mpr (.inl k5)⟩⟩
      by_contra hb
      have : q ∈ n2 := (List.mem_append.mp k5).resolve_left k2
      exact k4 ⟨by simpa using hb, List.ne_nil_of_mem this⟩
    rw [if_neg k5]
    by_cases k6 : q ∈ i ++ i2
    · rw [if_pos k6]
      exact ⟨4, _, rfl, .inr (.inl ⟨rfl, List.mem_append.mpr (.inl k6)⟩)⟩
    rw [if_neg k6]
    by_cases k7 : border = false ∧ n3 ≠ []
    · rw [if_pos k7]
      exact ⟨3, _, rfl, .inr (.inr (.inr ⟨rfl, by simp [k7.2], fun h => by rw [k7.1] at h; simp at h⟩))⟩
    rw [if_neg k7]
    by_cases k8 : q ∈ n3
    · rw [if_pos (by simpa using k8)]
      refine ⟨1, _, rfl, .inl ⟨rfl, ?_, by simp [k8]⟩⟩
      by_contra hb
      exact k7 ⟨by simpa using hb, List.ne_nil_of_mem k8⟩
    rw [if_neg (by simpa using k8)]
    by_cases k9 : q ∈ i3
    · rw [if_pos (by simpa using k9)]
      exact ⟨4, _, rfl, .inr (.inl ⟨rfl, by simp [k9]⟩)⟩
    rw [if_neg (by simpa using k9)]
    have hqI : q ∉ i ++ i2 ++ i3 := by rw [List.mem_append, not_or]; exact ⟨k6, k9⟩
    have hqN : q ∉ n ++ n2 ++ n3 := by rw [List.mem_append, not_or]; exact ⟨k5, k8⟩
    by_cases k10 : n = [] ∧ n2 = [] ∧ n3 = []
    · rw [if_pos k10]
      exact ⟨2, _, rfl, .inr (.inr (.inl ⟨rfl, by simp [k10], hqI⟩))⟩
    · rw [if_neg k10]
      exact ⟨3, _, rfl, .inr (.inr (.inr ⟨rfl, by simpa [and_assoc] using k10, fun _ => ⟨hqN, hqI⟩⟩))⟩
  rcases findBorderCell_spec hu hr hp1 hp2 hp10 with ⟨e1, e2⟩ | ⟨q, e1, e2, e3, e4⟩ | ⟨e1, e2, e3⟩
  · obtain ⟨a, g', h1, h2⟩ := main p true e1 ((hbf p).mp e2) .refl (fun _ => rfl) (by simp)
    exact ⟨a, g', h1, .inr (.inr ⟨hcov, p, true, (hbf p).mp e2, .refl, fun _ => rfl, by simp, h2⟩)⟩
  · obtain ⟨a, g', h1, h2⟩ := main q false e1 ((hbf q).mp e3) e4 (by simp) (fun _ h => e2 ((hbf p).mpr h))
    exact ⟨a, g', h1, .inr (.inr ⟨hcov, q, false, (hbf q).mp e3, e4, by simp, fun _ h => e2 ((hbf p).mpr h), h2⟩)⟩
  · refine ⟨2, g0, ?_, .inr (.inl ⟨hcov, rfl, fun q hq hf => e3 q hq ((hbf q).mpr hf)⟩)⟩
    rw [hstart, e1]
    rfl

/-- Nothing is certain about a covered cell that is not next to a number. -/
theorem not_certain_inner {g : Board} {p : Pos} (hp : IsCovered g p) (hf : ¬ Frontier g p) (hcons : ∃ σ, Consistent g σ)
    (b : Bool) : ¬ Certain g p b := by
  obtain ⟨σ, hσ⟩ := hcons
  intro hc
  have h2 : Consistent g (Function.update σ p (!b)) := by
    intro n hn
    rw [hσ n hn]
    unfold minesNear
    congr 2
    apply Finset.filter_congr
    intro q hq
    by_cases hqp : q = p
    · have : ¬ Near n q := fun h => hf ⟨hp, n, hn, hqp ▸ h⟩
      simp [this]
    · rw [Function.update_of_ne hqp]
  have := hc _ h2
  simp at this

/-- C44: on every board with non-negative entries that some layout explains (marks removed), `is_guess_while_needless`
answers 1, 2, 3, 4 or 5 for every cell of the board, and
* 5 exactly for open cells;
* 1 only for covered cells next to a number that are safe in every layout;
* 4 for a cell next to a number only if it is a mine in every layout;
* 3 only if some covered cell next to a number is safe in every layout, and (while at most 55 cells lie next to numbers)
  the clicked cell is not;
* 2 only for covered cells, and (same limit) only if the clicked cell is not certainly safe and no cell sharing numbers
  with it is. -/
theorem is_guess_while_needless_sound (g : Board) (r c : Nat) (hrect : Rect g r c) (hr : 0 < r)
    (hnn : ∀ p : Pos, p.1 < r → p.2 < c → 0 ≤ g.get p.1 p.2) (hcons : ∃ σ, Consistent (unmark g) σ)
    (p : Pos) (hp1 : p.1 < r) (hp2 : p.2 < c) :
    ∃ a g', isGuess g p = some (a, g') ∧ 1 ≤ a ∧ a ≤ 5 ∧
      (a = 5 ↔ g.get p.1 p.2 < 10) ∧
      (a = 1 → Frontier (unmark g) p ∧ Certain (unmark g) p false) ∧
      (a = 4 → Frontier (unmark g) p → Certain (unmark g) p true) ∧
      (a = 3 → (∃ q, Frontier (unmark g) q ∧ Certain (unmark g) q false) ∧
        (FewFrontier (unmark g) → ¬ Certain (unmark g) p false)) ∧
      (a = 2 → IsCovered (unmark g) p ∧
        (FewFrontier (unmark g) → ∀ q, SharesNumbers (unmark g) p q → ¬ Certain (unmark g) q false)) := by
  have h10 : (unmark g).get p.1 p.2 < 10 ↔ g.get p.1 p.2 < 10 := by
    rw [(unmark_spec g r c hrect).2 p hp1 hp2]
    split <;> omega
  have hinner : ∀ {p}, IsCovered (unmark g) p → ¬ Frontier (unmark g) p → ∀ q, SharesNumbers (unmark g) p q → q = p := by
    intro p hc hf q hq
    rcases Relation.ReflTransGen.cases_head hq with h | ⟨x, ⟨-, n, hn, hnp, -⟩, -⟩
    · exact h.symm
    · exact absurd ⟨hc, n, hn, hnp⟩ hf
  obtain ⟨a, g', h1, h2 | ⟨hc, h2, h3⟩ | ⟨hc, q, border, h2, h3, h4, h5, N, I, h6, h7, h8, hX, h9⟩⟩ :=
    isGuess_cases hrect hr hnn hcons hp1 hp2
  · refine ⟨a, g', h1, by omega, by omega, ⟨fun _ => h10.mp h2.2, fun _ => h2.1⟩, ?_, ?_, ?_, ?_⟩ <;>
      · intro h; omega
  · have h510 : ¬ g.get p.1 p.2 < 10 := by rw [← h10, hc.2]; decide
    have hnf := h3 p .refl
    refine ⟨a, g', h1, by omega, by omega, ⟨by omega, fun h => absurd h h510⟩, by omega, by omega, by omega, fun _ => ⟨hc, ?_⟩⟩
    intro _ x hx
    rw [hinner hc hnf x hx]
    exact not_certain_inner hc hnf hcons false
  · have h510 : ¬ g.get p.1 p.2 < 10 := by rw [← h10, hc.2]; decide
    have ha : 1 ≤ a ∧ a ≤ 4 := by rcases h9 with h | h | h | h <;> omega
    have hb : Frontier (unmark g) p → border = true := by
      intro hf
      by_contra hb
      exact h5 (by simpa using hb) hf
    refine ⟨a, g', h1, ha.1, by omega, ⟨by omega, fun h => absurd h h510⟩, ?_, ?_, ?_, ?_⟩
    · rintro rfl
      rcases h9 with ⟨-, h, h'⟩ | h | h | h
      · rw [← h4 h]; exact h6 q h'
      all_goals exact absurd h.1 (by decide)
    · rintro rfl hf
      rcases h9 with h | ⟨-, h⟩ | h | h
      · exact absurd h.1 (by decide)
      · rw [← h4 (hb hf)]; exact (h7 q h).2
      all_goals exact absurd h.1 (by decide)
    · rintro rfl
      rcases h9 with h | h | h | ⟨-, h, h'⟩
      iterate 3 exact absurd h.1 (by decide)
      refine ⟨?_, fun hfew hcert => ?_⟩
      · obtain ⟨x, hx⟩ := List.exists_mem_of_ne_nil N h
        exact ⟨x, h6 x hx⟩
      · by_cases hf : Frontier (unmark g) p
        · have hqp := h4 (hb hf)
          exact (h' (hb hf)).1 ((h8 hfew).1 q .refl (hqp ▸ hcert))
        · exact not_certain_inner hc hf hcons false hcert
    · rintro rfl
      rcases h9 with h | h | ⟨-, h, h'⟩ | h
      iterate 2 exact absurd h.1 (by decide)
      · refine ⟨hc, fun hfew x hx hcert => ?_⟩
        by_cases hf : Frontier (unmark g) p
        · have hqp := h4 (hb hf)
          have := (h8 hfew).1 x (hqp ▸ hx) hcert
          rw [h] at this
          simp at this
        · rw [hinner hc hf x hx] at hcert
          exact not_certain_inner hc hf hcons false hcert
      · exact absurd h.1 (by decide)

/-- C44: while at most 55 cells lie next to numbers, every certainly safe cell next to a number gets the answer 1, and
a certain mine next to a number gets 4 unless another cell is a certain mine too. -/
theorem is_guess_while_needless_complete_partial (g : Board) (r c : Nat) (hrect : Rect g r c) (hr : 0 < r)
    (hnn : ∀ p : Pos, p.1 < r → p.2 < c → 0 ≤ g.get p.1 p.2) (hcons : ∃ σ, Consistent (unmark g) σ)
    (hfew : FewFrontier (unmark g)) (p : Pos) (hf : Frontier (unmark g) p) :
    ∃ a g', isGuess g p = some (a, g') ∧ (Certain (unmark g) p false → a = 1) ∧
      (Certain (unmark g) p true → a = 4 ∨ ∃ q, q ≠ p ∧ Frontier (unmark g) q ∧ Certain (unmark g) q true) := by
  have hd := rect_dims (unmark_spec g r c hrect).1 hr
  have hpg := hf.1.1
  rw [hd.1, hd.2, mem_grid] at hpg
  obtain ⟨σ, hσ⟩ := hcons
  obtain ⟨a, g', h1, h2 | ⟨hc, h2, h3⟩ | ⟨hc, q, border, h2, h3, h4, h5, N, I, h6, h7, h8, hX, h9⟩⟩ :=
    isGuess_cases hrect hr hnn ⟨σ, hσ⟩ hpg.1 hpg.2
  · have := hf.1.2; omega
  · exact absurd hf (h3 p .refl)
  · have hb : border = true := by
      by_contra hb
      exact h5 (by simpa using hb) hf
    obtain rfl := h4 hb
    refine ⟨a, g', h1, fun hc => ?_, fun hc => ?_⟩
    · have hq := (h8 hfew).1 q .refl hc
      rcases h9 with h | ⟨-, h⟩ | ⟨-, h, -⟩ | ⟨-, -, h⟩
      · exact h.1
      · have e1 := (h7 q h).2 σ hσ
        rw [hc σ hσ] at e1
        simp at e1
      · rw [h] at hq; simp at hq
      · exact absurd hq (h hb).1
    · by_cases hq : q ∈ I
      · rcases h9 with ⟨-, -, h⟩ | h | ⟨-, -, h⟩ | ⟨-, -, h⟩
        · have e1 := (h6 q h).2 σ hσ
          rw [hc σ hσ] at e1
          simp at e1
        · exact .inl h.1
        · exact absurd hq h
        · exact absurd hq (h hb).2
      · exact .inr ((h8 hfew).2 hc hq)

/-- C44, exactly: unless some group of tied unknown cells has more than 55 cells, a covered cell next to a number gets the answer 1 exactly if it
is safe in every layout, and 4 exactly if the three looks at the numbers find it to be a mine, or it is a mine in every layout and no
other unknown cell lies next to exactly the same numbers.  (Without the limit: what the three looks find is never missed.) -/
theorem is_guess_while_needless_frontier (g : Board) (r c : Nat) (hrect : Rect g r c) (hr : 0 < r)
    (hnn : ∀ p : Pos, p.1 < r → p.2 < c → 0 ≤ g.get p.1 p.2) (σ : Pos → Bool) (hσ : Consistent (unmark g) σ)
    (p : Pos) (hf : Frontier (unmark g) p) :
    ∃ a g', isGuess g p = some (a, g') ∧ 1 ≤ a ∧ a ≤ 4 ∧
      (p ∈ quick σ (numbersOf (unmark g)) → a = if σ p then 4 else 1) ∧
      (SmallKnots (numbersOf (unmark g)) (quick σ (numbersOf (unmark g))) →
        (a = 1 ↔ Certain (unmark g) p false) ∧
        (a = 4 ↔ p ∈ quick σ (numbersOf (unmark g)) ∧ σ p = true ∨ EngineMine (unmark g) (quick σ (numbersOf (unmark g))) p) ∧
        (a = 2 → ∀ x, SharesNumbers (unmark g) p x → ¬ Certain (unmark g) x false)) := by
  have hd := rect_dims (unmark_spec g r c hrect).1 hr
  have hpg := hf.1.1
  rw [hd.1, hd.2, mem_grid] at hpg
  obtain ⟨a, g', h1, h2 | ⟨hc, h2, h3⟩ | ⟨hc, q, border, h2, h3, h4, h5, N, I, h6, h7, h8, hX, h9⟩⟩ :=
    isGuess_cases hrect hr hnn ⟨σ, hσ⟩ hpg.1 hpg.2
  · have := hf.1.2; omega
  · exact absurd hf (h3 p .refl)
  · have hb : border = true := by
      by_contra hb
      exact h5 (by simpa using hb) hf
    obtain rfl := h4 hb
    have hdis : ¬ (q ∈ N ∧ q ∈ I) := by
      rintro ⟨a1, a2⟩
      have e1 := (h6 q a1).2 σ hσ
      rw [(h7 q a2).2 σ hσ] at e1
      simp at e1
    have ha : (a = 1 ↔ q ∈ N) ∧ (a = 4 ↔ q ∈ I) ∧ (a = 2 → N = []) ∧ 1 ≤ a ∧ a ≤ 4 := by
      rcases h9 with ⟨rfl, -, h⟩ | ⟨rfl, h⟩ | ⟨rfl, h, h'⟩ | ⟨rfl, -, h⟩
      · have : q ∉ I := fun h' => hdis ⟨h, h'⟩
        simp [h, this]
      · have : q ∉ N := fun h' => hdis ⟨h', h⟩
        simp [h, this]
      · simp [h, h']
      · simp [(h hb).1, (h hb).2]
    refine ⟨a, g', h1, ha.2.2.2.1, ha.2.2.2.2, fun hq => ?_, fun hsm => ?_⟩
    · obtain ⟨k1, k2⟩ := (hX σ hσ q .refl).1 hq
      cases hv : σ q
      · simpa using ha.1.mpr (k1 hv)
      · simpa using ha.2.1.mpr (k2 hv)
    · obtain ⟨k1, k2⟩ := (hX σ hσ q .refl).2 hsm
      refine ⟨ha.1.trans k1, ha.2.1.trans k2, fun h x hx hcert => ?_⟩
      have := (((hX σ hσ x hx).2 hsm).1).mpr hcert
      rw [ha.2.2.1 h] at this
      simp at this

/-- The limit is met by every board with at most 55 covered cells next to numbers. -/
theorem smallKnots_of_few (g : Board) (K : Set Pos) (h : FewFrontier g) : SmallKnots (numbersOf g) K := by
  intro l hl hu _
  refine h l hl fun a ha => ?_
  obtain ⟨-, e, ⟨n, hn, rfl⟩, h1, h2⟩ := hu a ha
  exact ⟨h1, n, hn, h2⟩

/-- A certainly safe cell, a cell about which nothing is known, and the answers. -/
example : (isGuess [[1, 10, 1, 10], [1, 10, 1, 10]] (0, 3)).map (·.1) = some 1 ∧
    (isGuess [[1, 10, 1, 10], [1, 10, 1, 10]] (0, 1)).map (·.1) = some 3 := by decide +kernel

/-- C44, clicks inside a covered region (not next to any number): the answer is never 1 or 5; 2 means that the region
has no cell next to a number, or that for one such cell of the region no cell sharing numbers with it is certainly safe;
4 means that some cell of the region next to a number is a certain mine. -/
theorem is_guess_while_needless_inner (g : Board) (r c : Nat) (hrect : Rect g r c) (hr : 0 < r)
    (hnn : ∀ p : Pos, p.1 < r → p.2 < c → 0 ≤ g.get p.1 p.2) (hcons : ∃ σ, Consistent (unmark g) σ)
    (p : Pos) (hp : IsCovered (unmark g) p) (hf : ¬ Frontier (unmark g) p) :
    ∃ a g', isGuess g p = some (a, g') ∧ 2 ≤ a ∧ a ≤ 4 ∧
      (a = 2 → (∀ q, Region (unmark g) p q → ¬ Frontier (unmark g) q) ∨
        ∃ q, Region (unmark g) p q ∧ Frontier (unmark g) q ∧
          (FewFrontier (unmark g) → ∀ x, SharesNumbers (unmark g) q x → ¬ Certain (unmark g) x false)) ∧
      (a = 4 → ∃ q, Region (unmark g) p q ∧ Frontier (unmark g) q ∧ Certain (unmark g) q true) := by
  have hd := rect_dims (unmark_spec g r c hrect).1 hr
  have hpg := hp.1
  rw [hd.1, hd.2, mem_grid] at hpg
  obtain ⟨a, g', h1, h2 | ⟨hc, h2, h3⟩ | ⟨hc, q, border, h2, h3, h4, h5, N, I, h6, h7, h8, hX, h9⟩⟩ :=
    isGuess_cases hrect hr hnn hcons hpg.1 hpg.2
  · have := hp.2; omega
  · exact ⟨a, g', h1, by omega, by omega, fun _ => .inl h3, by omega⟩
  · have hb : border = false := by
      rw [← Bool.not_eq_true]
      intro hb
      exact hf (h4 hb ▸ h2)
    rcases h9 with ⟨-, h, -⟩ | ⟨rfl, h⟩ | ⟨rfl, h, -⟩ | ⟨rfl, h, -⟩
    · rw [hb] at h; simp at h
    · exact ⟨4, g', h1, by decide, by decide, by omega, fun _ => ⟨q, h3, h2, (h7 q h).2⟩⟩
    · refine ⟨2, g', h1, by decide, by decide, fun _ => .inr ⟨q, h3, h2, fun hfew x hx hc => ?_⟩, by omega⟩
      have := (h8 hfew).1 x hx hc
      rw [h] at this
      simp at this
    · exact ⟨3, g', h1, by decide, by decide, by omega, by omega⟩

/-- Against the documentation ("4: stepped on a certain mine"), a click inside a region is answered with 4 when the
*border cell the search finds* is a certain mine: here the clicked cell may well be safe. -/
theorem is_guess_while_needless_wrong_four : (isGuess [[1, 10, 10]] (0, 2)).map (·.1) = some 4 ∧
    ∃ σ, Consistent (unmark [[1, 10, 10]]) σ ∧ σ (0, 2) = false := by
  refine ⟨by decide +kernel, fun p => decide (p = (0, 1)), ?_, by decide⟩
  rintro p ⟨hp, h⟩
  have hp : p ∈ grid 1 3 := hp
  revert h
  revert p
  decide

/-- A board with three blocks of equations around one region of covered cells. -/
def chainBoard : Board :=
  [[10, 3, 10, 10, 10, 10], [10, 10, 10, 10, 2, 1], [10, 10, 10, 10, 3, 10], [1, 10, 10, 10, 2, 10]]

/-- Against the documentation ("2: a necessary guess"), the answer can be 2 although a cell of the same region is
certainly safe: the search for the blocks around a region only follows blocks with a larger index. -/
theorem is_guess_while_needless_misses : (isGuess chainBoard (1, 1)).map (·.1) = some 2 ∧
    (∃ σ, Consistent (unmark chainBoard) σ) ∧
    Region (unmark chainBoard) (1, 1) (2, 3) ∧ Frontier (unmark chainBoard) (2, 3) ∧ Certain (unmark chainBoard) (2, 3) false := by
  have hu : unmark chainBoard = chainBoard := by decide
  have hrect : Rect chainBoard 4 6 := ⟨rfl, by decide⟩
  have hcons : ∃ σ, Consistent chainBoard σ := 
    ⟨fun p => decide (p ∈ [((0, 0) : Pos), (0, 2), (1, 0), (1, 3), (2, 5), (3, 3), (2, 0)]), by
      rintro p ⟨hp, h⟩
      have hp : p ∈ grid 4 6 := hp
      revert h
      revert p
      decide +kernel⟩
  obtain ⟨S, n, i, g', h1, h2, h3, -⟩ := get_all_on_board_exact chainBoard 4 6 hrect (by decide) hcons
  have hn : (refreshMatrixs chainBoard).bind (fun S => (getAllOnBoard S chainBoard).map fun x => x.1) = some n := by
    rw [h1, Option.bind_some, h2]; rfl
  have hmem : (2, 3) ∈ n := by
    have e : (refreshMatrixs chainBoard).bind (fun S => (getAllOnBoard S chainBoard).map fun x => x.1) =
        some [(2, 3), (0, 3)] := by decide +kernel
    rw [e] at hn
    rw [← Option.some.inj hn]
    simp
  rw [hu]
  refine ⟨by decide +kernel, hcons, ?_, h3 _ hmem⟩
  have h11 : Near (1, 1) (1, 2) ∧ IsCovered chainBoard (1, 2) := ⟨by decide, by unfold IsCovered; decide⟩
  have h12 : Near (1, 2) (2, 3) ∧ IsCovered chainBoard (2, 3) := ⟨by decide, by unfold IsCovered; decide⟩
  exact Relation.ReflTransGen.tail (Relation.ReflTransGen.tail .refl h11) h12

/-- The theorems above apply: all five answers occur on boards that some layout explains. -/
example : (isGuess [[1, 10, 1, 10], [1, 10, 1, 10]] (0, 3)).map (·.1) = some 1 ∧
    (isGuess [[1, 10], [10, 10]] (0, 1)).map (·.1) = some 2 ∧
    (isGuess [[1, 10, 1, 10], [1, 10, 1, 10]] (0, 1)).map (·.1) = some 3 ∧
    (isGuess [[1, 10]] (0, 1)).map (·.1) = some 4 ∧ (isGuess [[1, 10]] (0, 0)).map (·.1) = some 5 := by
  decide +kernel

/-- `refresh_matrixses` keeps blocks together that border on the same covered region, whichever of them was met first,
and apart from the others. -/
example : (refreshMatrixses [[1, 10, 10, 10, 1, 11, 10, 0]]).map (List.map (List.map fun B => B.x)) =
    some [[[(0, 1)], [(0, 3)]], [[(0, 6)]]] := by
  decide +kernel

end Ms.Properties
