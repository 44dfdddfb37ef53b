import Verif.Model.Save
import Mathlib.Data.Nat.Digits.Lemmas
import Mathlib.Data.List.TakeWhile
import Mathlib.Data.Fintype.Pigeonhole
import Mathlib.Data.Set.Finite.Basic

/-! # C66 `save_to_evf_file` -/

namespace Ms.Properties
open Ms Ms.Save

/-- the disk holds finitely many files -/
def FiniteDisk (f : Disk) : Prop := {n | f n ≠ none}.Finite

/-! ## names -/

theorem digitChar_inj : ∀ a < 10, ∀ b < 10, Nat.digitChar a = Nat.digitChar b → a = b := by decide

theorem decimal_inj {a b : Nat} (h : decimal a = decimal b) : a = b := by
  unfold decimal at h
  rw [← Nat.digits_inj_iff (b := 10)]
  rw [List.map_reverse, List.map_reverse, List.reverse_inj] at h
  have key : ∀ l l' : List Nat, (∀ x ∈ l, x < 10) → (∀ x ∈ l', x < 10) → l.map Nat.digitChar = l'.map Nat.digitChar → l = l' := by
    intro l
    induction l with
    | nil => intro l' _ _ h; cases l' with
      | nil => rfl
      | cons => simp at h
    | cons a l ih =>
      intro l' h1 h2 h
      cases l' with
      | nil => simp at h
      | cons b l' =>
        simp only [List.map_cons, List.cons.injEq] at h
        rw [digitChar_inj a (h1 a (by simp)) b (h2 b (by simp)) h.1,
          ih l' (fun x hx => h1 x (by simp [hx])) (fun x hx => h2 x (by simp [hx])) h.2]
  exact key _ _ (fun x hx => Nat.digits_lt_base (by norm_num) hx) (fun x hx => Nat.digits_lt_base (by norm_num) hx) h

theorem fileName_inj {base : Name} {a b : Nat} (ha : 1 ≤ a) (hb : 1 ≤ b) (h : fileName base a = fileName base b) : a = b := by
  unfold fileName at h
  split at h <;> split at h
  · omega
  · exfalso
    rw [List.append_assoc, List.append_cancel_left_eq] at h
    simp at h
  · exfalso
    rw [List.append_assoc, List.append_cancel_left_eq] at h
    simp at h
  · simp only [List.append_assoc, List.append_cancel_left_eq, List.cons_append, List.cons.injEq, true_and] at h
    exact decimal_inj (List.append_cancel_right h)

/-! ## one saver -/

theorem put_same (f : Disk) (n : Name) (c : Content) : f.put n c n = some c := by simp [Disk.put]

theorem put_other {f : Disk} {n m : Name} {c : Content} (h : m ≠ n) : f.put n c m = f m := by simp [Disk.put, h]

theorem put_put (f : Disk) (n : Name) (c d : Content) : (f.put n c).put n d = f.put n d := by
  funext m
  by_cases h : m = n <;> simp [Disk.put, h]

theorem writeAt_take (data : Content) {k : Nat} (h : k < data.length) : writeAt (data.take k) k (data.getD k 0) = data.take (k + 1) := by
  unfold writeAt
  rw [if_neg (by simp), List.length_take, Nat.min_eq_left h.le, Nat.sub_self, List.replicate_zero, List.append_nil,
    List.getD_eq_getElem?_getD, List.getElem?_eq_getElem h, List.take_succ_eq_append_getElem h]
  rfl

theorem run_add (s : Saver) (f : Disk) (m : Nat) : ∀ n, s.run f (m + n) = (s.run f m).1.run (s.run f m).2 n
  | 0 => rfl
  | n + 1 => by
    rw [← Nat.add_assoc]
    show ((s.run f (m + n)).1.step (s.run f (m + n)).2) = _
    rw [run_add s f m n]
    rfl

/-- what a lone saver has done so far -/
inductive Progress (base : Name) (data : Content) (f : Disk) : Saver × Disk → Prop
  | look (id : Nat) : 1 ≤ id → (∀ j, 1 ≤ j → j < id → f (fileName base j) ≠ none) → Progress base data f (⟨base, data, .look id⟩, f)
  | create (id : Nat) : 1 ≤ id → (∀ j, 1 ≤ j → j < id → f (fileName base j) ≠ none) → f (fileName base id) = none →
      Progress base data f (⟨base, data, .create id⟩, f)
  | write (id k : Nat) : 1 ≤ id → (∀ j, 1 ≤ j → j < id → f (fileName base j) ≠ none) → f (fileName base id) = none →
      k ≤ data.length → Progress base data f (⟨base, data, .write id k⟩, f.put (fileName base id) (data.take k))
  | done (id : Nat) : 1 ≤ id → (∀ j, 1 ≤ j → j < id → f (fileName base j) ≠ none) → f (fileName base id) = none →
      Progress base data f (⟨base, data, .done id⟩, f.put (fileName base id) data)

theorem progress_step {base : Name} {data : Content} {f : Disk} {p : Saver × Disk} (h : Progress base data f p) :
    Progress base data f (p.1.step p.2) := by
  cases h with
  | look id h1 h2 =>
    unfold Saver.step
    simp only
    cases hf : f (fileName base id) with
    | none =>
      simp only [Option.isSome_none, Bool.false_eq_true, if_false]
      exact .create id h1 h2 hf
    | some c =>
      simp only [Option.isSome_some, if_true]
      refine .look _ (by unfold nextId; omega) fun j j1 j2 => ?_
      unfold nextId at j2
      by_cases hj : j = id
      · rw [hj, hf]; simp
      · exact h2 j j1 (by omega)
  | create id h1 h2 h3 => exact .write id 0 h1 h2 h3 (by omega)
  | write id k h1 h2 h3 h4 =>
    unfold Saver.step
    simp only
    split
    · rename_i hk
      rw [put_same, Option.getD_some, put_put, writeAt_take data hk]
      exact .write id (k + 1) h1 h2 h3 hk
    · rename_i hk
      rw [List.take_of_length_le (by omega)]
      exact .done id h1 h2 h3
  | done id h1 h2 h3 => exact .done id h1 h2 h3

theorem progress_run (base : Name) (data : Content) (f : Disk) : ∀ n, Progress base data f ((start base data).run f n)
  | 0 => .look 1 (by omega) (by omega)
  | n + 1 => progress_step (progress_run base data f n)

/-- **C66** Stopped (crashed) after any number of steps, a saver has not touched any file that was there; the only file it may
have added has one of its names, and holds a beginning of the data. -/
theorem C66_crash (base : Name) (data : Content) (f : Disk) (n : Nat) :
    (∀ m c, f m = some c → ((start base data).run f n).2 m = some c) ∧
    (∃ id ≥ 1, ∀ m, m ≠ fileName base id → ((start base data).run f n).2 m = f m) ∧
    (∀ m c, f m = none → ((start base data).run f n).2 m = some c → c <+: data) := by
  have h := progress_run base data f n
  generalize (start base data).run f n = p at h
  cases h with
  | look id h1 h2 => exact ⟨fun _ _ h => h, ⟨id, h1, fun _ _ => rfl⟩, fun m c a b => by simp only at b; rw [a] at b; cases b⟩
  | create id h1 h2 h3 => exact ⟨fun _ _ h => h, ⟨id, h1, fun _ _ => rfl⟩, fun m c a b => by simp only at b; rw [a] at b; cases b⟩
  | write id k h1 h2 h3 h4 =>
    refine ⟨fun m c hm => ?_, ⟨id, h1, fun m hm => put_other hm⟩, fun m c a b => ?_⟩
    · rw [← hm]
      exact put_other fun e => by rw [e, h3] at hm; cases hm
    · by_cases e : m = fileName base id
      · simp only [e, put_same, Option.some.injEq] at b
        rw [← b]
        exact List.take_prefix _ _
      · simp only [put_other e] at b
        rw [a] at b; cases b
  | done id h1 h2 h3 =>
    refine ⟨fun m c hm => ?_, ⟨id, h1, fun m hm => put_other hm⟩, fun m c a b => ?_⟩
    · rw [← hm]
      exact put_other fun e => by rw [e, h3] at hm; cases hm
    · by_cases e : m = fileName base id
      · simp only [e, put_same, Option.some.injEq] at b
        rw [← b]
      · simp only [put_other e] at b
        rw [a] at b; cases b

theorem run_write (base : Name) (data : Content) (f : Disk) (id : Nat) (h : f (fileName base id) = none) : ∀ k ≤ data.length,
    (⟨base, data, .create id⟩ : Saver).run f (k + 1) = (⟨base, data, .write id k⟩, f.put (fileName base id) (data.take k))
  | 0, _ => rfl
  | k + 1, hk => by
    show ((⟨base, data, .create id⟩ : Saver).run f (k + 1)).1.step ((⟨base, data, .create id⟩ : Saver).run f (k + 1)).2 = _
    rw [run_write base data f id h k (by omega)]
    unfold Saver.step
    simp only
    rw [if_pos (by omega), put_same, Option.getD_some, put_put, writeAt_take data (by omega)]

theorem run_look (base : Name) (data : Content) (f : Disk) : ∀ id, (∀ j, 1 ≤ j → j < id + 1 → f (fileName base j) ≠ none) →
    (start base data).run f id = (⟨base, data, .look (id + 1)⟩, f)
  | 0, _ => rfl
  | id + 1, h => by
    show ((start base data).run f id).1.step ((start base data).run f id).2 = _
    rw [run_look base data f id (fun j j1 j2 => h j j1 (by omega))]
    unfold Saver.step
    simp only
    rw [if_pos (Option.isSome_iff_ne_none.mpr (h (id + 1) (by omega) (by omega)))]
    rfl

theorem run_done (s : Saver) (f : Disk) (id : Nat) (h : s.pc = .done id) : ∀ n, s.run f n = (s, f)
  | 0 => rfl
  | n + 1 => by
    show (s.run f n).1.step (s.run f n).2 = _
    rw [run_done s f id h n]
    unfold Saver.step
    rw [h]

/-- some name is free -/
theorem exists_free {f : Disk} (hf : FiniteDisk f) (base : Name) :
    ∃ id ≥ 1, f (fileName base id) = none ∧ ∀ j, 1 ≤ j → j < id → f (fileName base j) ≠ none := by
  classical
  have hex : ∃ id, 1 ≤ id ∧ f (fileName base id) = none := by
    by_contra hno
    push Not at hno
    have hinj : Function.Injective fun i : Nat => fileName base (i + 1) := by
      intro a b h
      have := fileName_inj (by omega) (by omega) h
      omega
    have : (Set.range fun i : Nat => fileName base (i + 1)).Finite :=
      hf.subset (by rintro _ ⟨i, rfl⟩; exact hno (i + 1) (by omega))
    exact Set.infinite_range_of_injective hinj this
  refine ⟨Nat.find hex, (Nat.find_spec hex).1, (Nat.find_spec hex).2, fun j h1 h2 h3 => ?_⟩
  exact Nat.find_min hex h2 ⟨h1, h3⟩

/-- **C66** `save_to_evf_file` returns; it has written the data, completely, under the first of its names that was free, and
nothing else. -/
theorem C66_save (base : Name) (data : Content) (f : Disk) (hf : FiniteDisk f) :
    ∃ id ≥ 1, f (fileName base id) = none ∧ (∀ j, 1 ≤ j → j < id → f (fileName base j) ≠ none) ∧
      ∃ n, ∀ k ≥ n, (start base data).run f k = (⟨base, data, .done id⟩, f.put (fileName base id) data) := by
  obtain ⟨id, h1, h2, h3⟩ := exists_free hf base
  refine ⟨id, h1, h2, h3, (id - 1) + 1 + (data.length + 1) + 1, fun k hk => ?_⟩
  obtain ⟨d, rfl⟩ := Nat.exists_eq_add_of_le hk
  have a : (start base data).run f (id - 1) = (⟨base, data, .look id⟩, f) := by
    rw [run_look base data f (id - 1) (fun j j1 j2 => h3 j j1 (by omega)), Nat.sub_add_cancel h1]
  have b : (start base data).run f (id - 1 + 1) = (⟨base, data, .create id⟩, f) := by
    show ((start base data).run f (id - 1)).1.step ((start base data).run f (id - 1)).2 = _
    rw [a]
    unfold Saver.step
    simp only
    rw [h2]
    rfl
  have c : (start base data).run f (id - 1 + 1 + (data.length + 1)) =
      (⟨base, data, .write id data.length⟩, f.put (fileName base id) data) := by
    rw [run_add, b, run_write base data f id h2 _ (le_refl _), List.take_of_length_le (le_refl _)]
  have e : (start base data).run f (id - 1 + 1 + (data.length + 1) + 1) =
      (⟨base, data, .done id⟩, f.put (fileName base id) data) := by
    show ((start base data).run f (id - 1 + 1 + (data.length + 1))).1.step ((start base data).run f (id - 1 + 1 + (data.length + 1))).2 = _
    rw [c]
    unfold Saver.step
    simp only
    rw [if_neg (by omega)]
  rw [run_add, e, run_done _ _ id rfl]

/-! ## one after another -/

/-- the calls, one after another, each running to its end; the names they wrote -/
inductive SavedAll : Disk → List (Name × Content) → List Name → Disk → Prop
  | nil (f : Disk) : SavedAll f [] [] f
  | cons {f f' g : Disk} {b : Name} {d : Content} {id n : Nat} {calls : List (Name × Content)} {names : List Name} :
      (start b d).run f n = (⟨b, d, .done id⟩, f') → SavedAll f' calls names g →
      SavedAll f ((b, d) :: calls) (fileName b id :: names) g

theorem put_finite {f : Disk} (hf : FiniteDisk f) (n : Name) (c : Content) : FiniteDisk (f.put n c) := by
  refine (hf.insert n).subset fun m hm => ?_
  by_cases e : m = n
  · exact .inl e
  · exact .inr (by simpa [put_other e] using hm)

/-- **C66** Saves that follow one another all succeed, and at the end every one of them is in a file of its own, next to all
the files that were there before. -/
theorem C66_sequence : ∀ (calls : List (Name × Content)) (f : Disk), FiniteDisk f →
    ∃ names g, SavedAll f calls names g ∧ names.Nodup ∧ (∀ n ∈ names, f n = none) ∧
      (∀ m c, f m = some c → g m = some c) ∧ names.map g = calls.map fun c => some c.2
  | [], f, _ => ⟨[], f, .nil f, by simp, by simp, fun _ _ h => h, rfl⟩
  | (b, d) :: calls, f, hf => by
    obtain ⟨id, h1, h2, -, n, h4⟩ := C66_save b d f hf
    obtain ⟨names, g, g1, g2, g3, g4, g5⟩ := C66_sequence calls (f.put (fileName b id) d) (put_finite hf _ _)
    have hnot : fileName b id ∉ names := by
      intro hm
      have := g3 _ hm
      rw [put_same] at this
      cases this
    refine ⟨_, g, .cons (h4 n (le_refl _)) g1, List.nodup_cons.mpr ⟨hnot, g2⟩, ?_, ?_, ?_⟩
    · intro m hm
      rcases List.mem_cons.mp hm with rfl | hm
      · exact h2
      · have := g3 m hm
        rwa [put_other (fun e : m = fileName b id => hnot (e ▸ hm))] at this
    · intro m c hm
      apply g4
      rw [put_other (fun e => by rw [e, h2] at hm; cases hm), hm]
    · rw [List.map_cons, List.map_cons, g5, g4 _ d (put_same _ _ _)]

/-! ## side by side -/

/-- all calls at their beginning -/
def begin_ (calls : List (Name × Content)) (f : Disk) : World := ⟨calls.map fun c => start c.1 c.2, f⟩

/-- a saver never aims at a file that was there when it began -/
def Harmless (f : Disk) (s : Saver) : Prop :=
  match s.pc with
  | .create id => f (fileName s.base id) = none
  | .write id _ => f (fileName s.base id) = none
  | _ => True

theorem harmless_step {f g : Disk} (hfg : ∀ m c, f m = some c → g m = some c) {s : Saver} (h : Harmless f s) :
    Harmless f (s.step g).1 ∧ ∀ m c, f m = some c → (s.step g).2 m = some c := by
  have none_of : ∀ n, g n = none → f n = none := by
    intro n hn
    cases e : f n with
    | none => rfl
    | some c => rw [hfg n c e] at hn; cases hn
  unfold Saver.step
  cases hp : s.pc with
  | look id =>
    simp only
    split
    · exact ⟨by simp [Harmless], hfg⟩
    · rename_i hn
      exact ⟨none_of _ (by simpa using hn), hfg⟩
  | create id =>
    have h' : f (fileName s.base id) = none := by simpa [Harmless, hp] using h
    refine ⟨h', fun m c hm => ?_⟩
    exact (put_other (fun e : m = fileName s.base id => by rw [e, h'] at hm; cases hm)).trans (hfg m c hm)
  | write id k =>
    have h' : f (fileName s.base id) = none := by simpa [Harmless, hp] using h
    simp only
    split
    · refine ⟨h', fun m c hm => ?_⟩
      exact (put_other (fun e : m = fileName s.base id => by rw [e, h'] at hm; cases hm)).trans (hfg m c hm)
    · exact ⟨by simp [Harmless], hfg⟩
  | done id => exact ⟨h, hfg⟩

/-- **C66** Whatever the savers that run side by side, whatever the schedule and wherever each of them crashes: files that were
there before are not touched. -/
theorem C66_schedule (calls : List (Name × Content)) (f : Disk) (schedule : List Nat) (m : Name) (c : Content) (hm : f m = some c) :
    ((begin_ calls f).run schedule).disk m = some c := by
  suffices h : ∀ (schedule : List Nat) (w : World), (∀ s ∈ w.savers, Harmless f s) → (∀ m c, f m = some c → w.disk m = some c) →
      ∀ m c, f m = some c → (w.run schedule).disk m = some c by
    refine h schedule _ ?_ (fun _ _ h => h) m c hm
    intro s hs
    obtain ⟨c, -, rfl⟩ := List.mem_map.mp hs
    trivial
  intro schedule
  induction schedule with
  | nil => intro w _ h; exact h
  | cons i l ih =>
    intro w h1 h2
    show ∀ m c, f m = some c → ((w.step i).run l).disk m = some c
    unfold World.step
    cases hi : w.savers[i]? with
    | none => exact ih w h1 h2
    | some s =>
      obtain ⟨a, b⟩ := harmless_step h2 (h1 s (List.mem_of_getElem? hi))
      refine ih _ (fun t ht => ?_) b
      rcases List.mem_or_eq_of_mem_set ht with ht | rfl
      · exact h1 t ht
      · exact a

/-- what a saver has achieved, as long as nobody else uses its names -/
def Achieved (s : Saver) (g : Disk) : Prop :=
  match s.pc with
  | .write id k => k ≤ s.data.length ∧ g (fileName s.base id) = some (s.data.take k)
  | .done id => g (fileName s.base id) = some s.data
  | _ => True

/-- no two of the names are the same file -/
def Apart (a b : Name) : Prop := ∀ i j, fileName a i ≠ fileName b j

theorem step_base (s : Saver) (g : Disk) : (s.step g).1.base = s.base ∧ (s.step g).1.data = s.data := by
  unfold Saver.step
  split
  · split <;> exact ⟨rfl, rfl⟩
  · exact ⟨rfl, rfl⟩
  · split <;> exact ⟨rfl, rfl⟩
  · exact ⟨rfl, rfl⟩

theorem step_own (s : Saver) (g : Disk) (h : Achieved s g) : Achieved (s.step g).1 (s.step g).2 := by
  unfold Saver.step
  cases hp : s.pc with
  | look id => simp only; split <;> trivial
  | create id => exact ⟨Nat.zero_le _, put_same _ _ _⟩
  | write id k =>
    unfold Achieved at h
    rw [hp] at h
    simp only
    split
    · rename_i hk
      refine ⟨hk, ?_⟩
      show Disk.put _ _ _ _ = _
      rw [put_same, h.2, Option.getD_some, writeAt_take _ hk]
    · rename_i hk
      show g _ = _
      rw [h.2, List.take_of_length_le (by omega)]
  | done id => exact h

theorem step_foreign (s t : Saver) (g : Disk) (ha : Apart s.base t.base) (h : Achieved t g) : Achieved t (s.step g).2 := by
  have key : ∀ j, (s.step g).2 (fileName t.base j) = g (fileName t.base j) := by
    intro j
    unfold Saver.step
    split
    · split <;> rfl
    · exact put_other (fun e => ha _ _ e.symm)
    · split
      · exact put_other (fun e => ha _ _ e.symm)
      · rfl
    · rfl
  unfold Achieved at *
  cases hp : t.pc with
  | look => trivial
  | create => trivial
  | write id k =>
    rw [hp] at h
    exact ⟨h.1, by rw [key]; exact h.2⟩
  | done id =>
    rw [hp] at h
    simp only at h ⊢
    rw [key]; exact h

/-- **C66** Savers whose names are apart do not disturb each other: whatever the schedule, a call that has returned has its
data in its file, and keeps it there. -/
theorem C66_apart (calls : List (Name × Content)) (f : Disk)
    (hap : ∀ (i j : Nat) (a b : Name × Content), i ≠ j → calls[i]? = some a → calls[j]? = some b → Apart a.1 b.1) (schedule : List Nat) (i id : Nat)
    (a : Name × Content) (hi : calls[i]? = some a) (hd : ((begin_ calls f).run schedule).savers[i]?.map (·.pc) = some (.done id)) :
    ((begin_ calls f).run schedule).disk (fileName a.1 id) = some a.2 := by
  suffices h : ∀ (schedule : List Nat) (w : World), w.savers.length = calls.length →
      (∀ (i : Nat) (s : Saver) (a : Name × Content), w.savers[i]? = some s → calls[i]? = some a → s.base = a.1 ∧ s.data = a.2 ∧ Achieved s w.disk) →
      (w.run schedule).savers.length = calls.length ∧
      ∀ (i : Nat) (s : Saver) (a : Name × Content), (w.run schedule).savers[i]? = some s → calls[i]? = some a → s.base = a.1 ∧ s.data = a.2 ∧ Achieved s (w.run schedule).disk by
    have := (h schedule (begin_ calls f) (by simp [begin_]) ?_).2
    · cases hs : ((begin_ calls f).run schedule).savers[i]? with
      | none => rw [hs] at hd; cases hd
      | some s =>
        obtain ⟨e1, e2, e3⟩ := this i s a hs hi
        rw [hs] at hd
        simp only [Option.map_some, Option.some.injEq] at hd
        unfold Achieved at e3
        rw [hd] at e3
        rw [← e1, ← e2]
        exact e3
    · intro i s a hs ha
      unfold begin_ at hs
      rw [List.getElem?_map, ha, Option.map_some, Option.some.injEq] at hs
      subst hs
      exact ⟨rfl, rfl, trivial⟩
  intro schedule
  induction schedule with
  | nil => intro w h1 h2; exact ⟨h1, h2⟩
  | cons k l ih =>
    intro w h1 h2
    show ((w.step k).run l).savers.length = _ ∧ ∀ (i : Nat) (s : Saver) (a : Name × Content), ((w.step k).run l).savers[i]? = some s → _
    apply ih
    · unfold World.step
      split
      · exact h1
      · simpa using h1
    · intro i s a hs ha
      unfold World.step at hs ⊢
      cases hk : w.savers[k]? with
      | none => rw [hk] at hs; exact h2 i s a hs ha
      | some t =>
        rw [hk] at hs
        simp only at hs ⊢
        have hkl : k < w.savers.length := by
          by_contra hc
          rw [List.getElem?_eq_none (by omega)] at hk
          cases hk
        by_cases hik : k = i
        · subst hik
          rw [List.getElem?_set_self hkl, Option.some.injEq] at hs
          subst hs
          obtain ⟨e1, e2, e3⟩ := h2 k t a hk ha
          obtain ⟨b1, b2⟩ := step_base t w.disk
          exact ⟨b1.trans e1, b2.trans e2, step_own t w.disk e3⟩
        · rw [List.getElem?_set_ne hik] at hs
          obtain ⟨e1, e2, e3⟩ := h2 i s a hs ha
          obtain ⟨b, hb⟩ : ∃ b, calls[k]? = some b := ⟨_, List.getElem?_eq_getElem (by omega)⟩
          refine ⟨e1, e2, step_foreign t s w.disk ?_ e3⟩
          rw [e1, (h2 k t b hk hb).1]
          exact hap k i b a hik hb ha

/-- different names without brackets are apart -/
theorem C66_names_apart {a b : Name} (hab : a ≠ b) (ha : '(' ∉ a) (hb : '(' ∉ b) : Apart a b := by
  have plain : ∀ (n : Name), '(' ∉ n → '(' ∉ n ++ ".evf".toList := by
    intro n hn hm
    rcases List.mem_append.mp hm with h | h
    · exact hn h
    · revert h; decide
  have tw : ∀ (n r : Name), '(' ∉ n → (n ++ '(' :: r).takeWhile (fun c => decide (c ≠ '(')) = n := by
    intro n r hn
    rw [List.takeWhile_append_of_pos (fun x hx => by simpa using fun e : x = '(' => hn (e ▸ hx))]
    simp
  intro i j h
  unfold fileName at h
  split at h <;> split at h
  · exact hab (List.append_cancel_right h)
  · exact plain a ha (by rw [h]; simp)
  · exact plain b hb (by rw [← h]; simp)
  · apply hab
    rw [List.append_assoc, List.append_assoc] at h
    have := congrArg (List.takeWhile fun c => decide (c ≠ '(')) h
    simp only [List.cons_append] at this
    rwa [tw a _ ha, tw b _ hb] at this

/-! ## findings and examples -/

/-- an empty disk -/
def noFiles : Disk := fun _ => none

theorem noFiles_finite : FiniteDisk noFiles := by simp [FiniteDisk, noFiles]

/-- **C66** Two calls with the same name side by side: both return, the data of the first are nowhere on the disk. -/
theorem C66_race : ∃ schedule, let w := (begin_ [("a".toList, [1, 2]), ("a".toList, [3, 4])] noFiles).run schedule
    w.savers.map (·.pc) = [.done 1, .done 1] ∧ w.disk "a.evf".toList = some [3, 4] ∧ ∀ m, w.disk m ≠ some [1, 2] := by
  refine ⟨[0, 1, 0, 0, 0, 0, 1, 1, 1, 1], by decide +kernel, by decide +kernel, fun m => ?_⟩
  by_cases e : m = fileName "a".toList 1
  · rw [e]; decide +kernel
  · have h : ((begin_ [("a".toList, [1, 2]), ("a".toList, [3, 4])] noFiles).run [0, 1, 0, 0, 0, 0, 1, 1, 1, 1]).disk m =
      (((((noFiles.put (fileName "a".toList 1) []).put (fileName "a".toList 1) [1]).put (fileName "a".toList 1) [1, 2]).put
        (fileName "a".toList 1) []).put (fileName "a".toList 1) [3]).put (fileName "a".toList 1) [3, 4] m := by rfl
    rw [h]
    simp only [put_put]
    rw [put_other e]
    simp [noFiles]

/-- `a(2)` and `a` are not apart -/
example : ¬ Apart "a(2)".toList "a".toList := fun h => h 1 2 (by decide)

example : Apart "a".toList "b".toList := C66_names_apart (by decide) (by decide) (by decide)

example : ((start "a".toList [7, 8]).run (noFiles.put "a.evf".toList [1]) 10).2 "a(2).evf".toList = some [7, 8] := by decide +kernel

end Ms.Properties
