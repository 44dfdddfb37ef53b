import Verif.SpecJson
import Mathlib.Data.List.Basic
import Mathlib.Tactic

/-! # Spellings of JSON values: no text spells two values; the texts that are written are spellings -/

namespace Ms
open Ms.Spec

/-! ## no text spells two values -/

/-- maximal runs are found in one way -/
theorem run_unique {P : Char → Prop} {t t' r r' : List Char} (ht : ∀ c ∈ t, P c) (ht' : ∀ c ∈ t', P c)
    (hr : ∀ c, r.head? = some c → ¬ P c) (hr' : ∀ c, r'.head? = some c → ¬ P c) (h : t ++ r = t' ++ r') :
    t = t' ∧ r = r' := by
  induction t generalizing t' with
  | nil =>
    cases t' with
    | nil => exact ⟨rfl, h⟩
    | cons c t' =>
      exfalso
      simp only [List.nil_append, List.cons_append] at h
      exact hr c (by rw [h]; rfl) (ht' c List.mem_cons_self)
  | cons c t ih =>
    cases t' with
    | nil =>
      exfalso
      simp only [List.nil_append, List.cons_append] at h
      exact hr' c (by rw [← h]; rfl) (ht c List.mem_cons_self)
    | cons d t' =>
      simp only [List.cons_append, List.cons.injEq] at h
      obtain ⟨e1, e2⟩ := ih (fun x hx => ht x (List.mem_cons_of_mem _ hx)) (fun x hx => ht' x (List.mem_cons_of_mem _ hx)) h.2
      exact ⟨by rw [h.1, e1], e2⟩

/-- how a spelling may go on -/
def Stop (r : List Char) : Prop :=
  ∀ c, r.head? = some c → c = ' ' ∨ c = '\t' ∨ c = '\n' ∨ c = '\r' ∨ c = ',' ∨ c = ']'

theorem stop_white {b r : List Char} (hb : White b) (hr : Stop r) : Stop (b ++ r) := by
  cases b with
  | nil => exact hr
  | cons c b =>
    intro d hd
    simp only [List.cons_append, List.head?_cons, Option.some.injEq] at hd
    subst hd
    rcases hb c List.mem_cons_self with h | h | h | h <;> simp [h]

theorem stop_nil : Stop [] := by intro c h; simp at h

theorem stop_cons {c : Char} {r : List Char} (h : c = ',' ∨ c = ']') : Stop (c :: r) := by
  intro d hd
  simp only [List.head?_cons, Option.some.injEq] at hd
  subst hd
  rcases h with h | h <;> simp [h]

/-- a decimal digit -/
def IsDigit (c : Char) : Prop := '0' ≤ c ∧ c ≤ '9'

/-- how the spelling of a value begins -/
def Head : JVal → Char → Prop
  | .null, c => c = 'n'
  | .bool b, c => c = if b then 't' else 'f'
  | .int _, c => IsDigit c ∨ c = '-'
  | .str _, c => c = '"'
  | .arr _, c => c = '['
  | .float, _ => False
  | .obj, _ => False

theorem spells_head {v : JVal} {t : List Char} (h : Spells v t) : ∃ c t', t = c :: t' ∧ Head v c := by
  cases v with
  | null => exact ⟨_, _, h, rfl⟩
  | bool b => cases b <;> exact ⟨_, _, h, rfl⟩
  | int n =>
    rcases h with ⟨hd, _⟩ | ⟨ds, rfl, _⟩
    · cases t with
      | nil => exact absurd rfl hd.1
      | cons c t => exact ⟨c, t, rfl, Or.inl (hd.2.1 c List.mem_cons_self)⟩
    · exact ⟨_, _, rfl, Or.inr rfl⟩
  | float => exact h.elim
  | str s => exact ⟨_, _, h.2, rfl⟩
  | arr l =>
    unfold Spells at h
    obtain ⟨u, hu, _⟩ := h
    exact ⟨_, _, hu, rfl⟩
  | obj => exact h.elim

theorem head_not {v : JVal} {c : Char} (h : Head v c) :
    ¬ (c = ' ' ∨ c = '\t' ∨ c = '\n' ∨ c = '\r') ∧ c ≠ ']' := by
  cases v with
  | null => simp only [Head] at h; subst h; decide
  | bool b => simp only [Head] at h; subst h; cases b <;> decide
  | int n =>
    rcases h with h | h
    · constructor
      · rintro (e | e | e | e) <;> (subst e; exact absurd h.1 (by decide))
      · intro e; subst e; exact absurd h.2 (by decide)
    · subst h; decide
  | float => exact h.elim
  | str s => simp only [Head] at h; subst h; decide
  | arr l => simp only [Head] at h; subst h; decide
  | obj => exact h.elim

theorem stop_not_digit {r : List Char} (h : Stop r) : ∀ c, r.head? = some c → ¬ IsDigit c := by
  intro c hc hd
  unfold IsDigit at hd
  rcases h c hc with e | e | e | e | e | e <;> (subst e; revert hd; decide)

theorem int_unique {n m : Int} {t t' r r' : List Char} (h : IntSpelling n t) (h' : IntSpelling m t')
    (e : t ++ r = t' ++ r') (hr : Stop r) (hr' : Stop r') : n = m ∧ r = r' := by
  have minus : ∀ {ds : List Char}, (∀ c ∈ ds, '0' ≤ c ∧ c ≤ '9') → ∀ {x y : List Char}, ds ≠ [] → ds ++ x = '-' :: y → False := by
    intro ds hds x y hne he
    cases ds with
    | nil => exact hne rfl
    | cons c ds =>
      simp only [List.cons_append, List.cons.injEq] at he
      have := hds c List.mem_cons_self
      rw [he.1] at this
      exact absurd this (by decide)
  rcases h with ⟨a, b, _⟩ | ⟨ds, a, a1, b, _⟩ <;> rcases h' with ⟨a', b', _⟩ | ⟨ds', a', a1', b', _⟩
  · obtain ⟨e1, e2⟩ := run_unique (P := IsDigit) a.2.1 a'.2.1 (stop_not_digit hr) (stop_not_digit hr') e
    subst e1
    exact ⟨by rw [b, b'], e2⟩
  · exact (minus a.2.1 a.1 (by rw [e, a', List.cons_append])).elim
  · exact (minus a'.2.1 a'.1 (by rw [← e, a, List.cons_append])).elim
  · rw [a, a', List.cons_append, List.cons_append, List.cons.injEq] at e
    obtain ⟨e1, e2⟩ := run_unique (P := IsDigit) a1.2.1 a1'.2.1 (stop_not_digit hr) (stop_not_digit hr') e.2
    subst e1
    exact ⟨by rw [b, b'], e2⟩

/-- after white space comes the next sign -/
theorem white_unique {a a' r r' : List Char} (ha : White a) (ha' : White a')
    (hr : ∀ c, r.head? = some c → ¬ (c = ' ' ∨ c = '\t' ∨ c = '\n' ∨ c = '\r'))
    (hr' : ∀ c, r'.head? = some c → ¬ (c = ' ' ∨ c = '\t' ∨ c = '\n' ∨ c = '\r')) (h : a ++ r = a' ++ r') :
    a = a' ∧ r = r' := run_unique ha ha' hr hr' h

theorem spells_next {v : JVal} {t r : List Char} (h : Spells v t) :
    ∀ c, (t ++ r).head? = some c → ¬ (c = ' ' ∨ c = '\t' ∨ c = '\n' ∨ c = '\r') := by
  obtain ⟨c, t', rfl, hc⟩ := spells_head h
  intro d hd
  simp only [List.cons_append, List.head?_cons, Option.some.injEq] at hd
  subst hd
  exact (head_not hc).1

theorem cons_next {c : Char} {r : List Char} (h : c = ',' ∨ c = ']') :
    ∀ d, (c :: r).head? = some d → ¬ (d = ' ' ∨ d = '\t' ∨ d = '\n' ∨ d = '\r') := by
  intro d hd
  simp only [List.head?_cons, Option.some.injEq] at hd
  subst hd
  rcases h with h | h <;> (subst h; decide)

mutual
theorem spells_unique : ∀ (v w : JVal) (t t' r r' : List Char), Spells v t → Spells w t' → t ++ r = t' ++ r' → Stop r →
    Stop r' → v = w ∧ r = r'
  | v, w, t, t', r, r', h, h', e, hr, hr' => by
    obtain ⟨c, u, e1, hc⟩ := spells_head h
    obtain ⟨c', u', e1', hc'⟩ := spells_head h'
    have ecc : c = c' := by
      rw [e1, e1', List.cons_append, List.cons_append, List.cons.injEq] at e
      exact e.1
    subst ecc
    match v, w with
    | .null, .null =>
      unfold Spells at h h'
      subst h h'
      exact ⟨rfl, by simpa using e⟩
    | .bool a, .bool b =>
      unfold Spells at h h'
      subst h h'
      cases a <;> cases b <;> first | (refine ⟨rfl, ?_⟩; simpa using e) | (exfalso; simp at e)
    | .int n, .int m =>
      unfold Spells at h h'
      obtain ⟨a, b⟩ := int_unique h h' e hr hr'
      exact ⟨by rw [a], b⟩
    | .str a, .str b =>
      unfold Spells at h h'
      obtain ⟨h1, rfl⟩ := h
      obtain ⟨h1', rfl⟩ := h'
      simp only [List.cons_append, List.cons.injEq, true_and, List.append_assoc, List.nil_append] at e
      obtain ⟨a, b⟩ := run_unique (P := fun c => c ≠ '"') (fun c hc => (h1 c hc).1) (fun c hc => (h1' c hc).1)
        (by simp) (by simp) e
      simp only [List.cons.injEq, true_and] at b
      exact ⟨by rw [a], b⟩
    | .arr l, .arr l' =>
      unfold Spells at h h'
      obtain ⟨x, rfl, hx⟩ := h
      obtain ⟨x', rfl, hx'⟩ := h'
      simp only [List.cons_append, List.cons.injEq, true_and, List.append_assoc, List.nil_append] at e
      obtain ⟨a, b⟩ := spellsAll_unique l l' x x' r r' hx hx' e
      exact ⟨by rw [a], b⟩
    | .float, _ => exact h.elim
    | .obj, _ => exact h.elim
    | _, .float => exact h'.elim
    | _, .obj => exact h'.elim
    | .null, .bool b => simp only [Head] at hc hc'; subst hc; cases b <;> simp at hc'
    | .null, .int n => simp only [Head] at hc hc'; subst hc; exfalso; revert hc'; unfold IsDigit; decide
    | .null, .str n => simp only [Head] at hc hc'; subst hc; simp at hc'
    | .null, .arr n => simp only [Head] at hc hc'; subst hc; simp at hc'
    | .bool b, .null => simp only [Head] at hc hc'; subst hc; cases b <;> simp at hc'
    | .bool b, .int n => simp only [Head] at hc hc'; subst hc; exfalso; revert hc'; unfold IsDigit; cases b <;> decide
    | .bool b, .str n => simp only [Head] at hc hc'; subst hc; cases b <;> simp at hc'
    | .bool b, .arr n => simp only [Head] at hc hc'; subst hc; cases b <;> simp at hc'
    | .int n, .null => simp only [Head] at hc hc'; subst hc'; exfalso; revert hc; unfold IsDigit; decide
    | .int n, .bool b => simp only [Head] at hc hc'; subst hc'; exfalso; revert hc; unfold IsDigit; cases b <;> decide
    | .int n, .str b => simp only [Head] at hc hc'; subst hc'; exfalso; revert hc; unfold IsDigit; decide
    | .int n, .arr b => simp only [Head] at hc hc'; subst hc'; exfalso; revert hc; unfold IsDigit; decide
    | .str a, .null => simp only [Head] at hc hc'; subst hc; simp at hc'
    | .str a, .bool b => simp only [Head] at hc hc'; subst hc; cases b <;> simp at hc'
    | .str a, .int b => simp only [Head] at hc hc'; subst hc; exfalso; revert hc'; unfold IsDigit; decide
    | .str a, .arr b => simp only [Head] at hc hc'; subst hc; simp at hc'
    | .arr a, .null => simp only [Head] at hc hc'; subst hc; simp at hc'
    | .arr a, .bool b => simp only [Head] at hc hc'; subst hc; cases b <;> simp at hc'
    | .arr a, .int b => simp only [Head] at hc hc'; subst hc; exfalso; revert hc'; unfold IsDigit; decide
    | .arr a, .str b => simp only [Head] at hc hc'; subst hc; simp at hc'

theorem spellsAll_unique : ∀ (l l' : List JVal) (x x' r r' : List Char), SpellsAll l x → SpellsAll l' x' →
    x ++ ']' :: r = x' ++ ']' :: r' → l = l' ∧ r = r'
  | [], [], x, x', r, r', h, h', e => by
    unfold SpellsAll at h h'
    obtain ⟨_, b⟩ := white_unique h h' (cons_next (Or.inr rfl)) (cons_next (Or.inr rfl)) e
    simp only [List.cons.injEq, true_and] at b
    exact ⟨rfl, b⟩
  | [], w :: l', x, x', r, r', h, h', e => by
    exfalso
    unfold SpellsAll at h h'
    obtain ⟨a, t, b, ha, hb, ht, hu⟩ := h'
    have : ∃ z, x' ++ ']' :: r' = a ++ (t ++ z) := by
      rcases hu with ⟨_, rfl⟩ | ⟨_, y, rfl, _⟩ <;> exact ⟨_, by simp only [List.append_assoc]; rfl⟩
    obtain ⟨z, hz⟩ := this
    rw [hz] at e
    obtain ⟨_, b⟩ := white_unique h ha (cons_next (Or.inr rfl)) (spells_next ht) e
    obtain ⟨c, t0, rfl, hc⟩ := spells_head ht
    simp only [List.cons_append, List.cons.injEq] at b
    exact (head_not hc).2 b.1.symm
  | v :: l, [], x, x', r, r', h, h', e => by
    exfalso
    unfold SpellsAll at h h'
    obtain ⟨a, t, b, ha, hb, ht, hu⟩ := h
    have : ∃ z, x ++ ']' :: r = a ++ (t ++ z) := by
      rcases hu with ⟨_, rfl⟩ | ⟨_, y, rfl, _⟩ <;> exact ⟨_, by simp only [List.append_assoc]; rfl⟩
    obtain ⟨z, hz⟩ := this
    rw [hz] at e
    obtain ⟨_, b⟩ := white_unique ha h' (spells_next ht) (cons_next (Or.inr rfl)) e
    obtain ⟨c, t0, rfl, hc⟩ := spells_head ht
    simp only [List.cons_append, List.cons.injEq] at b
    exact (head_not hc).2 b.1
  | v :: l, w :: l', x, x', r, r', h, h', e => by
    unfold SpellsAll at h h'
    obtain ⟨a, t, b, ha, hb, ht, hu⟩ := h
    obtain ⟨a', t', b', ha', hb', ht', hu'⟩ := h'
    have : ∃ c z, x ++ ']' :: r = a ++ (t ++ (b ++ c :: z)) ∧
        ((l = [] ∧ c = ']' ∧ z = r) ∨ (l ≠ [] ∧ c = ',' ∧ ∃ y, z = y ++ ']' :: r ∧ SpellsAll l y)) := by
      rcases hu with ⟨h1, rfl⟩ | ⟨h1, y, rfl, h2⟩
      · exact ⟨']', r, by simp only [List.append_assoc], Or.inl ⟨h1, rfl, rfl⟩⟩
      · exact ⟨',', y ++ ']' :: r, by simp only [List.append_assoc, List.cons_append], Or.inr ⟨h1, rfl, y, rfl, h2⟩⟩
    obtain ⟨c, z, hz, k⟩ := this
    have : ∃ c z, x' ++ ']' :: r' = a' ++ (t' ++ (b' ++ c :: z)) ∧
        ((l' = [] ∧ c = ']' ∧ z = r') ∨ (l' ≠ [] ∧ c = ',' ∧ ∃ y, z = y ++ ']' :: r' ∧ SpellsAll l' y)) := by
      rcases hu' with ⟨h1, rfl⟩ | ⟨h1, y, rfl, h2⟩
      · exact ⟨']', r', by simp only [List.append_assoc], Or.inl ⟨h1, rfl, rfl⟩⟩
      · exact ⟨',', y ++ ']' :: r', by simp only [List.append_assoc, List.cons_append], Or.inr ⟨h1, rfl, y, rfl, h2⟩⟩
    obtain ⟨c', z', hz', k'⟩ := this
    have hcc : c = ',' ∨ c = ']' := by rcases k with k | k <;> simp [k.2.1]
    have hcc' : c' = ',' ∨ c' = ']' := by rcases k' with k | k <;> simp [k.2.1]
    rw [hz, hz'] at e
    obtain ⟨_, e1⟩ := white_unique ha ha' (spells_next ht) (spells_next ht') e
    obtain ⟨e2, e3⟩ := spells_unique v w t t' _ _ ht ht' e1 (stop_white hb (stop_cons hcc)) (stop_white hb' (stop_cons hcc'))
    obtain ⟨_, e4⟩ := white_unique hb hb' (cons_next hcc) (cons_next hcc') e3
    simp only [List.cons.injEq] at e4
    obtain ⟨e5, e6⟩ := e4
    subst e2 e5
    rcases k with ⟨k1, k2, k3⟩ | ⟨k1, k2, y, k3, k4⟩ <;> rcases k' with ⟨q1, q2, q3⟩ | ⟨q1, q2, y', q3, q4⟩
    · exact ⟨by rw [k1, q1], by rw [← k3, ← q3, e6]⟩
    · rw [k2] at q2; exact absurd q2 (by decide)
    · rw [k2] at q2; exact absurd q2 (by decide)
    · obtain ⟨f1, f2⟩ := spellsAll_unique l l' y y' r r' k4 q4 (by rw [← k3, ← q3, e6])
      exact ⟨by rw [f1], f2⟩
end

/-- There is a reader of JSON texts. -/
theorem reader_exists : ∃ parse, Reader parse := by
  classical
  refine ⟨fun s => if h : ∃ v a t b, White a ∧ White b ∧ Spells v t ∧ s = a ++ (t ++ b) then some h.choose else none, ?_⟩
  intro v a t b ha hb ht
  have h : ∃ v' a' t' b', White a' ∧ White b' ∧ Spells v' t' ∧ a ++ (t ++ b) = a' ++ (t' ++ b') :=
    ⟨v, a, t, b, ha, hb, ht, rfl⟩
  simp only
  rw [dif_pos h]
  obtain ⟨a', t', b', ha', hb', ht', e⟩ := h.choose_spec
  obtain ⟨_, e1⟩ := white_unique ha ha' (spells_next ht) (spells_next ht') e
  have w1 : Stop b := by simpa using stop_white hb stop_nil
  have w2 : Stop b' := by simpa using stop_white hb' stop_nil
  rw [(spells_unique v _ t t' b b' ht ht' e1 w1 w2).1]

/-! ## the texts that are written are spellings -/

theorem digitChar_digit {d : Nat} (h : d < 10) : '0' ≤ d.digitChar ∧ d.digitChar ≤ '9' ∧ d.digitChar.toNat - 48 = d ∧
    (d.digitChar = '0' → d = 0) := by
  interval_cases d <;> decide

theorem decimal_append (ds : List Char) (c : Char) : decimal (ds ++ [c]) = 10 * decimal ds + (c.toNat - 48) := by
  unfold decimal
  rw [List.foldl_append]
  rfl

theorem toDigits_spec (n : Nat) : (∀ c ∈ Nat.toDigits 10 n, '0' ≤ c ∧ c ≤ '9') ∧ decimal (Nat.toDigits 10 n) = n ∧
    ((Nat.toDigits 10 n).head? = some '0' → n = 0) := by
  induction n using Nat.strong_induction_on with
  | _ n ih =>
    by_cases h : n < 10
    · rw [Nat.toDigits_of_lt_base h]
      obtain ⟨a, b, c, d⟩ := digitChar_digit h
      refine ⟨by simpa using ⟨a, b⟩, ?_, by simpa using d⟩
      unfold decimal
      simpa using c
    · rw [Nat.toDigits_of_base_le (by omega) (by omega)]
      obtain ⟨i1, i2, i3⟩ := ih (n / 10) (by omega)
      obtain ⟨a, b, c, d⟩ := digitChar_digit (Nat.mod_lt n (show 10 > 0 by omega))
      refine ⟨?_, ?_, ?_⟩
      · intro x hx
        rcases List.mem_append.mp hx with hx | hx
        · exact i1 x hx
        · simp only [List.mem_singleton] at hx
          subst hx
          exact ⟨a, b⟩
      · rw [decimal_append, i2, c]
        omega
      · intro hh
        rw [List.head?_append_of_ne_nil _ Nat.toDigits_ne_nil] at hh
        have := i3 hh
        omega

theorem toDigits_digits (n : Nat) : Digits (Nat.toDigits 10 n) := by
  obtain ⟨a, _, c⟩ := toDigits_spec n
  refine ⟨Nat.toDigits_ne_nil, a, fun h => ?_⟩
  rw [c h]
  rfl

theorem intText_spells {n : Int} (h1 : -2 ^ 63 ≤ n) (h2 : n < 2 ^ 64) : Spells (.int n) (intText n) := by
  unfold Spells intText
  have hd := (toDigits_spec n.natAbs).2.1
  by_cases h : n < 0
  · rw [if_pos h]
    exact Or.inr ⟨_, rfl, toDigits_digits _, by rw [hd]; omega, by rw [hd]; omega, by rw [hd]; omega⟩
  · rw [if_neg h]
    exact Or.inl ⟨toDigits_digits _, by rw [hd]; omega, by rw [hd]; omega⟩

theorem white_nil : White [] := by intro c h; simp at h

theorem listText_spells {l : List JVal} {ts : List (List Char)} (h : List.Forall₂ Spells l ts) :
    Spells (.arr l) (listText ts) := by
  unfold Spells listText
  refine ⟨_, rfl, ?_⟩
  induction h with
  | nil => unfold SpellsAll; exact white_nil
  | @cons v t l ts hv hl ih =>
    unfold SpellsAll
    refine ⟨[], t, [], white_nil, white_nil, hv, ?_⟩
    cases hl with
    | nil => exact Or.inl ⟨rfl, by simp [List.intercalate]⟩
    | @cons w u l ts hw hl =>
      refine Or.inr ⟨by simp, _, ?_, ih⟩
      simp [List.intercalate, List.intersperse]

theorem vec2json_spells {b : Board} (h : ∀ r ∈ b, ∀ x ∈ r, -2 ^ 63 ≤ x ∧ x < 2 ^ 63) : Spells (matrix b) (vec2json b) := by
  unfold matrix vec2json
  refine listText_spells ?_
  rw [List.forall₂_map_left_iff, List.forall₂_map_right_iff]
  refine List.forall₂_same.mpr fun r hr => listText_spells ?_
  rw [List.forall₂_map_left_iff, List.forall₂_map_right_iff]
  exact List.forall₂_same.mpr fun x hx => intText_spells (h r hr x hx).1 (by have := (h r hr x hx).2; omega)

end Ms
