import Verif.Model.Gen
import Verif.Properties.Laymine
import Verif.Properties.Solvable
import Mathlib.Algebra.BigOperators.Fin

namespace Ms
open Spec Properties

variable {r c m x0 y0 maxTimes : Nat}

/-- What is asked of every board returned: the size, the number of mines, right numbers, and a start showing 0. -/
structure Ordered (r c m x0 y0 : Nat) (b : Board) : Prop where
  rect : Rect b r c
  mines : (mines b.view).card = m
  numbered : Numbered b.view
  start : b.get x0 y0 = 0

theorem laymineOp_ordered {sh : List Int → List Int} (hsh : ∀ l, (sh l).Perm l) (hr : 3 ≤ r) (hc : 3 ≤ c)
    (hx : x0 < r) (hy : y0 < c) (hm : m ≤ r * c - (startBlock r c x0 y0).card) :
    ∃ b, laymineOp sh r c m x0 y0 = some b ∧ Ordered r c m x0 y0 b := by
  obtain ⟨b, h1, h2, h3, -, h4, h5⟩ := C02_laymine_op_partial sh hsh r c m x0 y0 (by omega) (by omega) hx hy hm
  exact ⟨b, h1, h2, h3, h4, h5⟩

theorem ordered_total {b : Board} (h : Ordered r c m x0 y0 b) (hr : 3 ≤ r) (hc : 3 ≤ c)
    (hx : x0 < r) (hy : y0 < c) :
    ∃ v, isSolvable b x0 y0 = some v ∧ (v = true → NoGuess r c b (x0, y0)) :=
  is_solvable_sound r c b (x0, y0) h.rect h.numbered hr hc (mem_grid.mpr ⟨hx, hy⟩) (by
    have := h.start
    simp only
    omega)

/-! ## the eight threads -/

theorem budgetsFrom_length (n m : Nat) : (budgetsFrom n m).length = n := by
  induction n generalizing m with
  | zero => rfl
  | succ n ih => simp [budgetsFrom, ih]

theorem budgetsFrom_sum (n m : Nat) (hn : 0 < n) : (budgetsFrom n m).sum = m := by
  induction n generalizing m with
  | zero => omega
  | succ n ih =>
    simp only [budgetsFrom, List.sum_cons]
    rcases Nat.eq_zero_or_pos n with rfl | h
    · simp [budgetsFrom]
    · rw [ih _ h]
      have := Nat.div_le_self m (n + 1)
      omega

theorem budget_sum (m : Nat) : (Finset.univ.sum fun i => budget m i) = m := by
  have h := budgetsFrom_sum 8 m (by omega)
  have h2 := budgetsFrom_length 8 m
  unfold budget
  generalize budgetsFrom 8 m = l at h h2
  rw [← h]
  match l, h2 with
  | [a1, a2, a3, a4, a5, a6, a7, a8], _ => simp [Fin.sum_univ_eight, Nat.add_assoc]

/-- tries a thread may still make -/
def Phase.left (B : Nat) : Phase → Nat
  | .loop k => B - k
  | .attempt k => B - k
  | _ => 0

/-- steps a thread may still make -/
def Phase.todo (B : Nat) : Phase → Nat
  | .loop k => 2 * (B - k) + 5
  | .attempt k => 2 * (B - k) + 4
  | .won _ => 3
  | .locked _ => 2
  | .final => 1
  | .done => 0
  | .panicked => 0

structure ParInv (r c m x0 y0 maxTimes : Nat) (s : Par) : Prop where
  alive : ∀ i, s.ph i ≠ .panicked
  lock : ∀ i, s.lock = some i ↔ ∃ b, s.ph i = .locked b
  board : ∀ i b, s.ph i = .won b ∨ s.ph i = .locked b → Ordered r c m x0 y0 b ∧ isSolvable b x0 y0 = some true
  msg : ∀ p ∈ s.chan, Ordered r c m x0 y0 p.1 ∧ (p.2 = true → isSolvable p.1 x0 y0 = some true)
  done : ∀ i, s.ph i = .done → s.chan ≠ []
  attempt : ∀ i k, s.ph i = .attempt k → k < budget maxTimes i
  tried : s.tried + (Finset.univ.sum fun i => (s.ph i).left (budget maxTimes i)) ≤ maxTimes

def Par.todo (maxTimes : Nat) (s : Par) : Nat := Finset.univ.sum fun i => (s.ph i).todo (budget maxTimes i)

theorem move_same (s : Par) (i : Fin 8) (p : Phase) : (s.move i p).ph i = p := by simp [Par.move]

theorem move_other (s : Par) {i j : Fin 8} (p : Phase) (h : j ≠ i) : (s.move i p).ph j = s.ph j := by
  simp [Par.move, h]

@[simp] theorem move_chan (s : Par) (i : Fin 8) (p : Phase) : (s.move i p).chan = s.chan := rfl

@[simp] theorem move_tried (s : Par) (i : Fin 8) (p : Phase) : (s.move i p).tried = s.tried := rfl

theorem sum_move (s : Par) (i : Fin 8) (p : Phase) (f : Fin 8 → Phase → Nat) :
    (Finset.univ.sum fun j => f j ((s.move i p).ph j)) + f i (s.ph i) =
      (Finset.univ.sum fun j => f j (s.ph j)) + f i p := by
  rw [← Finset.add_sum_erase _ _ (Finset.mem_univ i), ← Finset.add_sum_erase _ _ (Finset.mem_univ i), move_same]
  have : ((Finset.univ.erase i).sum fun j => f j ((s.move i p).ph j)) = (Finset.univ.erase i).sum fun j => f j (s.ph j) :=
    Finset.sum_congr rfl fun j hj => by rw [move_other s p (Finset.ne_of_mem_erase hj)]
  omega

theorem parInv_init : ParInv r c m x0 y0 maxTimes Par.init := by
  refine ⟨by simp [Par.init], by simp [Par.init], by simp [Par.init], by simp [Par.init], by simp [Par.init],
    by simp [Par.init], ?_⟩
  simp only [Par.init, Phase.left, Nat.sub_zero, Nat.zero_add]
  rw [budget_sum]


theorem parInv_move {s : Par} (h : ParInv r c m x0 y0 maxTimes s) (i : Fin 8) (p : Phase) (fl : Bool)
    (lk : Option (Fin 8)) (ch : List (Board × Bool)) (tr : Nat)
    (h1 : p ≠ .panicked)
    (h2 : ∀ j, lk = some j ↔ ∃ b, (s.move i p).ph j = .locked b)
    (h3 : ∀ b, p = .won b ∨ p = .locked b → Ordered r c m x0 y0 b ∧ isSolvable b x0 y0 = some true)
    (h4 : ∀ q ∈ ch, Ordered r c m x0 y0 q.1 ∧ (q.2 = true → isSolvable q.1 x0 y0 = some true))
    (h5 : p = .done ∨ s.chan ≠ [] → ch ≠ [])
    (h6 : ∀ k, p = .attempt k → k < budget maxTimes i)
    (h7 : tr + p.left (budget maxTimes i) ≤ s.tried + (s.ph i).left (budget maxTimes i)) :
    ParInv r c m x0 y0 maxTimes ⟨fl, lk, ch, (s.move i p).ph, tr⟩ := by
  refine ⟨fun j => ?_, h2, fun j b hb => ?_, h4, fun j hj => ?_, fun j k hj => ?_, ?_⟩
  · simp only
    by_cases hj : j = i
    · subst hj; rw [move_same]; exact h1
    · rw [move_other _ _ hj]; exact h.alive j
  · simp only at hb
    by_cases hj : j = i
    · subst hj; rw [move_same] at hb; exact h3 b hb
    · rw [move_other _ _ hj] at hb; exact h.board j b hb
  · simp only at hj
    by_cases hji : j = i
    · subst hji; rw [move_same] at hj; exact h5 (.inl hj)
    · rw [move_other _ _ hji] at hj; exact h5 (.inr (h.done j hj))
  · simp only at hj
    by_cases hji : j = i
    · subst hji; rw [move_same] at hj; exact h6 k hj
    · rw [move_other _ _ hji] at hj; exact h.attempt j k hj
  · have := sum_move s i p fun j q => q.left (budget maxTimes j)
    have h8 := h.tried
    simp only at *
    omega

theorem lock_move {s : Par} (h : ParInv r c m x0 y0 maxTimes s) (i : Fin 8) (p : Phase) (h1 : ∀ b, p ≠ .locked b)
    (h2 : ∀ b, s.ph i ≠ .locked b) (j : Fin 8) : s.lock = some j ↔ ∃ b, (s.move i p).ph j = .locked b := by
  rw [h.lock]
  by_cases hj : j = i
  · subst hj
    rw [move_same]
    exact ⟨fun ⟨b, hb⟩ => absurd hb (h2 b), fun ⟨b, hb⟩ => absurd hb (h1 b)⟩
  · rw [move_other _ _ hj]

theorem parInv_step {s t : Par} (hr : 3 ≤ r) (hc : 3 ≤ c) (hx : x0 < r) (hy : y0 < c)
    (hm : m ≤ r * c - (startBlock r c x0 y0).card) (h : ParInv r c m x0 y0 maxTimes s)
    (hs : ParStep r c m x0 y0 maxTimes s t) : ParInv r c m x0 y0 maxTimes t := by
  cases hs with
  | @exhausted i k hp hk =>
    exact parInv_move h i .final _ _ _ _ (by simp) (lock_move h i _ (by simp) (by simp [hp])) (by simp) h.msg
      (by simp) (by simp) (by simp [Phase.left])
  | @stop i k hp hk hl hf =>
    exact parInv_move h i .final _ _ _ _ (by simp) (lock_move h i _ (by simp) (by simp [hp])) (by simp) h.msg
      (by simp) (by simp) (by simp [Phase.left])
  | @go i k hp hk hl hf =>
    exact parInv_move h i (.attempt k) _ _ _ _ (by simp) (lock_move h i _ (by simp) (by simp [hp])) (by simp) h.msg
      (by simp) (by rintro k' h'; simp at h'; omega) (by simp [Phase.left, hp])
  | @layPanic i k sh hp hsh hb =>
    obtain ⟨b, h1, -⟩ := laymineOp_ordered hsh hr hc hx hy hm
    rw [h1] at hb; simp at hb
  | @checkPanic i k sh b hp hsh hb hs =>
    obtain ⟨b', h1, h2⟩ := laymineOp_ordered hsh hr hc hx hy hm
    rw [h1] at hb
    obtain rfl : b' = b := by simpa using hb
    obtain ⟨v, h3, -⟩ := ordered_total h2 hr hc hx hy
    rw [h3] at hs; simp at hs
  | @lose i k sh b hp hsh hb hs =>
    exact parInv_move h i (.loop (k + 1)) _ _ _ _ (by simp) (lock_move h i _ (by simp) (by simp [hp])) (by simp) h.msg
      (by simp) (by simp) (by
        have := h.attempt i k hp
        simp only [Phase.left, hp]; omega)
  | @win i k sh b hp hsh hb hs =>
    obtain ⟨b', h1, h2⟩ := laymineOp_ordered hsh hr hc hx hy hm
    rw [h1] at hb
    obtain rfl : b' = b := by simpa using hb
    refine parInv_move h i (.won b') _ _ _ _ (by simp) (lock_move h i _ (by simp) (by simp [hp])) ?_ h.msg
      (by simp) (by simp) (by
        have := h.attempt i k hp
        simp only [Phase.left, hp]; omega)
    rintro b'' (hb | hb) <;> simp at hb
    subst hb
    exact ⟨h2, hs⟩
  | @set i b hp hl =>
    refine parInv_move h i (.locked b) _ _ _ _ (by simp) ?_ ?_ h.msg (by simp) (by simp) (by simp [Phase.left, hp])
    · intro j
      by_cases hj : j = i
      · subst hj; simp [move_same]
      · rw [move_other _ _ hj, ← h.lock, hl]
        simp only [Option.some.injEq, reduceCtorEq, iff_false]
        exact fun e => hj e.symm
    · rintro b'' (hb | hb) <;> simp at hb
      subst hb
      exact h.board i b (.inl hp)
  | @send i b hp =>
    refine parInv_move h i .final _ _ _ _ (by simp) ?_ (by simp) ?_ (by simp) (by simp) (by simp [Phase.left, hp])
    · intro j
      by_cases hj : j = i
      · subst hj; simp [move_same]
      · rw [move_other _ _ hj, ← h.lock, (h.lock i).mpr ⟨b, hp⟩]
        simp only [Option.some.injEq, reduceCtorEq, false_iff]
        exact fun e => hj e.symm
    · intro q hq
      rcases List.mem_append.mp hq with hq | hq
      · exact h.msg q hq
      · rw [List.mem_singleton.mp hq]
        have := h.board i b (.inr hp)
        exact ⟨this.1, fun _ => this.2⟩
  | @last i sh b hp hsh hb =>
    obtain ⟨b', h1, h2⟩ := laymineOp_ordered hsh hr hc hx hy hm
    rw [h1] at hb
    obtain rfl : b' = b := by simpa using hb
    refine parInv_move h i .done _ _ _ _ (by simp) (lock_move h i _ (by simp) (by simp [hp])) (by simp) ?_ (by simp)
      (by simp) (by simp only [Phase.left, hp, move_tried]; omega)
    intro q hq
    rcases List.mem_append.mp hq with hq | hq
    · exact h.msg q hq
    · rw [List.mem_singleton.mp hq]
      exact ⟨h2, by simp⟩
  | @lastPanic i sh hp hsh hb =>
    obtain ⟨b, h1, -⟩ := laymineOp_ordered hsh hr hc hx hy hm
    rw [h1] at hb; simp at hb

theorem todo_step {s t : Par} (h : ∀ i k, s.ph i = .attempt k → k < budget maxTimes i)
    (hs : ParStep r c m x0 y0 maxTimes s t) : t.todo maxTimes < s.todo maxTimes := by
  have key : ∀ i p, p.todo (budget maxTimes i) < (s.ph i).todo (budget maxTimes i) →
      (Finset.univ.sum fun j => ((s.move i p).ph j).todo (budget maxTimes j)) < s.todo maxTimes := by
    intro i p hlt
    have := sum_move s i p fun j q => q.todo (budget maxTimes j)
    unfold Par.todo
    omega
  unfold Par.todo
  cases hs with
  | @exhausted i k hp hk => exact key i _ (by simp [Phase.todo, hp])
  | @stop i k hp hk hl hf => exact key i _ (by simp [Phase.todo, hp])
  | @go i k hp hk hl hf => exact key i _ (by simp [Phase.todo, hp])
  | @layPanic i k sh hp hsh hb => exact key i _ (by simp [Phase.todo, hp])
  | @checkPanic i k sh b hp hsh hb hs => exact key i _ (by simp [Phase.todo, hp])
  | @lose i k sh b hp hsh hb hs =>
    refine key i _ ?_
    have := h i k hp
    simp only [Phase.todo, hp]; omega
  | @win i k sh b hp hsh hb hs => exact key i _ (by simp only [Phase.todo, hp]; omega)
  | @set i b hp hl => exact key i _ (by simp [Phase.todo, hp])
  | @send i b hp => exact key i _ (by simp [Phase.todo, hp])
  | @last i sh b hp hsh hb => exact key i _ (by simp [Phase.todo, hp])
  | @lastPanic i sh hp hsh hb => exact key i _ (by simp [Phase.todo, hp])

/-- As long as a thread is not done, some thread can go on. -/
theorem par_progress {s : Par} (hr : 3 ≤ r) (hc : 3 ≤ c) (hx : x0 < r) (hy : y0 < c)
    (hm : m ≤ r * c - (startBlock r c x0 y0).card) (h : ParInv r c m x0 y0 maxTimes s) (hn : ¬ ∀ i, s.ph i = .done) :
    ∃ t, ParStep r c m x0 y0 maxTimes s t := by
  cases hl : s.lock with
  | some i =>
    obtain ⟨b, hb⟩ := (h.lock i).mp hl
    exact ⟨_, .send hb⟩
  | none =>
    rw [not_forall] at hn
    obtain ⟨i, hi⟩ := hn
    have hid : ∀ l : List Int, (id l).Perm l := fun l => .refl _
    obtain ⟨b, h1, h2⟩ := laymineOp_ordered (r := r) (c := c) (m := m) (x0 := x0) (y0 := y0) hid hr hc hx hy hm
    cases hp : s.ph i with
    | loop k =>
      by_cases hk : k < budget maxTimes i
      · cases hf : s.flag with
        | true => exact ⟨_, .stop hp hk hl hf⟩
        | false => exact ⟨_, .go hp hk hl hf⟩
      · exact ⟨_, .exhausted hp (by omega)⟩
    | attempt k =>
      obtain ⟨v, h3, -⟩ := ordered_total h2 hr hc hx hy
      cases v with
      | true => exact ⟨_, .win hp hid h1 h3⟩
      | false => exact ⟨_, .lose hp hid h1 h3⟩
    | won b => exact ⟨_, .set hp hl⟩
    | locked b => exact ⟨_, .send hp⟩
    | final => exact ⟨_, .last hp hid h1⟩
    | done => exact absurd hp hi
    | panicked => exact absurd hp (h.alive i)

theorem parSteps_inv {s t : Par} {n : Nat} (hr : 3 ≤ r) (hc : 3 ≤ c) (hx : x0 < r) (hy : y0 < c)
    (hm : m ≤ r * c - (startBlock r c x0 y0).card) (h : ParInv r c m x0 y0 maxTimes s)
    (hs : ParSteps r c m x0 y0 maxTimes n s t) :
    ParInv r c m x0 y0 maxTimes t ∧ n + t.todo maxTimes ≤ s.todo maxTimes ∧ s.chan <+: t.chan := by
  induction hs with
  | refl => exact ⟨h, by omega, List.prefix_refl _⟩
  | step h1 h2 ih =>
    obtain ⟨g1, g2, g3⟩ := ih h
    refine ⟨parInv_step hr hc hx hy hm g1 h2, ?_, g3.trans ?_⟩
    · have := todo_step g1.attempt h2
      omega
    · cases h2 <;> simp [Par.move]

/-- Every execution can be carried to the end. -/
theorem par_finish {s : Par} (hr : 3 ≤ r) (hc : 3 ≤ c) (hx : x0 < r) (hy : y0 < c)
    (hm : m ≤ r * c - (startBlock r c x0 y0).card) {s0 : Par} {n0 : Nat} (h0 : ParInv r c m x0 y0 maxTimes s0)
    (hs : ParSteps r c m x0 y0 maxTimes n0 s0 s) :
    ∃ n t, ParSteps r c m x0 y0 maxTimes n s0 t ∧ (∀ i, t.ph i = .done) ∧ s.chan <+: t.chan := by
  generalize hd : s.todo maxTimes = d
  induction d using Nat.strong_induction_on generalizing s n0 with
  | _ d ih =>
    obtain ⟨h, -, -⟩ := parSteps_inv hr hc hx hy hm h0 hs
    by_cases hn : ∀ i, s.ph i = .done
    · exact ⟨n0, s, hs, hn, List.prefix_refl _⟩
    · obtain ⟨t, ht⟩ := par_progress hr hc hx hy hm h hn
      obtain ⟨n, u, g1, g2, g3⟩ := ih (t.todo maxTimes) (by rw [← hd]; exact todo_step h.attempt ht) (hs.step ht) rfl
      refine ⟨n, u, g1, g2, ?_⟩
      have := (parSteps_inv hr hc hx hy hm h (ParSteps.refl.step ht)).2.2
      exact this.trans g3

theorem todo_init (maxTimes : Nat) : Par.init.todo maxTimes = 2 * maxTimes + 40 := by
  unfold Par.todo Par.init
  simp only [Phase.todo, Nat.sub_zero, Finset.sum_add_distrib, ← Finset.mul_sum, budget_sum]
  simp

end Ms

