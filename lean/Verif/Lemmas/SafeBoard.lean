import Verif.Lemmas.Basic
import Verif.Model.SafeBoard

namespace Ms

theorem i32_some {n : Int} (h1 : -2 ^ 31 ≤ n) (h2 : n < 2 ^ 31) : i32 n = some n := by
  unfold i32; rw [if_pos ⟨h1, h2⟩]

/-- the value read back for a stored value: itself, except that 9 reads as 10 -/
def shown (v : Int) : Int := if v = 9 then 10 else v

theorem encode_read (m : Mask) (hm : m.Ok) (v : Int) (h1 : -3 ≤ v) (h2 : v ≤ 16) :
    ∃ t, encode m v = some t ∧ Triple.read t = some (shown v) ∧
      decode t = encodeTable[(v + 3).toNat]? := by
  obtain ⟨⟨a1, a2⟩, ⟨b1, b2⟩, k1, k2⟩ := hm
  obtain ⟨a, b, k⟩ := m
  simp only at a1 a2 b1 b2 k1 k2
  have key : ∃ c : Int, encodeTable[(v + 3).toNat]? = some c ∧ 0 ≤ c ∧ c < 20 ∧
      decodeTable[c.toNat]? = some (shown v) := by
    have : v = -3 ∨ v = -2 ∨ v = -1 ∨ v = 0 ∨ v = 1 ∨ v = 2 ∨ v = 3 ∨ v = 4 ∨ v = 5 ∨ v = 6 ∨ v = 7 ∨
      v = 8 ∨ v = 9 ∨ v = 10 ∨ v = 11 ∨ v = 12 ∨ v = 13 ∨ v = 14 ∨ v = 15 ∨ v = 16 := by omega
    rcases this with h | h | h | h | h | h | h | h | h | h | h | h | h | h | h | h | h | h | h | h <;>
      subst h <;> exact ⟨_, rfl, by decide, by decide, by decide⟩
  obtain ⟨c, hc, c0, c20, hd⟩ := key
  have hdec : decode (a, b, c + k * 20 - a - b) = some c := by
    unfold decode
    simp only
    rw [i32_some (by omega) (by omega)]
    simp only [Option.bind_eq_bind, Option.bind_some]
    have e : a + b + (c + k * 20 - a - b) = c + k * 20 := by omega
    rw [e, i32_some (by omega) (by omega)]
    simp only [Option.bind_some, Option.pure_def, Option.some.injEq]
    have h1 : (c + k * 20).tmod 20 = if 0 ≤ c + k * 20 ∨ (20 : Int) ∣ c + k * 20 then (c + k * 20) % 20
        else (c + k * 20) % 20 - 20 := by
      rw [Int.tmod_eq_emod]
      split <;> simp
    rw [h1]
    split <;> split <;> omega
  refine ⟨(a, b, c + k * 20 - a - b), ?_, ?_, ?_⟩
  · unfold encode
    simp only
    rw [i32_some (by omega) (by omega)]
    simp only [Option.bind_eq_bind, Option.bind_some]
    rw [if_pos (by omega), hc]
    simp only [Option.bind_some]
    rw [i32_some (by omega) (by omega)]
    simp only [Option.bind_some]
    rw [i32_some (by omega) (by omega)]
    simp only [Option.bind_some]
    rw [i32_some (by omega) (by omega)]
    simp only [Option.bind_some]
    rw [i32_some (by omega) (by omega)]
    rfl
  · unfold Triple.read
    rw [hdec]
    simp only [Option.bind_eq_bind, Option.bind_some]
    rw [if_pos c0, hd]
  · rw [hdec, hc]

theorem encodeRow_spec (m : Nat → Mask) (hm : ∀ j, (m j).Ok) : ∀ (l : List Int) (j : Nat),
    (∀ v ∈ l, -3 ≤ v ∧ v ≤ 16) →
    ∃ ts, encodeRow m l j = some ts ∧ ts.length = l.length ∧
      (∀ i : Nat, ts[i]?.bind Triple.read = (l[i]?).map shown) ∧
      ∀ i : Nat, ts[i]?.bind decode = (l[i]?).bind fun v : Int => encodeTable[(v + 3).toNat]? := by
  intro l
  induction l with
  | nil => intro j _; exact ⟨[], rfl, rfl, by simp, by simp⟩
  | cons v l ih =>
    intro j h
    obtain ⟨t, ht, hr, hd⟩ := encode_read (m j) (hm j) v (h v (by simp)).1 (h v (by simp)).2
    obtain ⟨ts, hts, hlen, hget, hdec⟩ := ih (j + 1) fun v hv => h v (by simp [hv])
    refine ⟨t :: ts, ?_, by simp [hlen], ?_, ?_⟩
    · simp [encodeRow, ht, hts]
    · intro i
      cases i with
      | zero => simpa using hr
      | succ i => simpa using hget i
    · intro i
      cases i with
      | zero => simpa using hd
      | succ i => simpa using hdec i

theorem newRows_spec (m : Nat → Nat → Mask) (hm : ∀ i j, (m i j).Ok) : ∀ (b : Board) (i : Nat),
    (∀ l ∈ b, ∀ v ∈ l, -3 ≤ v ∧ v ≤ 16) →
    ∃ rs, newRows m b i = some rs ∧ rs.length = b.length ∧
      (∀ n : Nat, (rs[n]?).map (fun r : SafeRow => r.value.length) = (b[n]?).map List.length) ∧
      (∀ n j : Nat, ((rs[n]?).bind fun r : SafeRow => r.index j) = ((b[n]?).bind fun l : List Int => (l[j]?).map shown)) ∧
      (∀ n j : Nat, ((rs[n]?).bind fun r : SafeRow => (r.value[j]?).bind decode) =
        ((b[n]?).bind fun l : List Int => (l[j]?).bind fun v : Int => encodeTable[(v + 3).toNat]?)) ∧
      ∀ r ∈ rs, r.counter = 0 := by
  intro b
  induction b with
  | nil => intro i _; exact ⟨[], rfl, rfl, by simp, by simp, by simp, by simp⟩
  | cons l b ih =>
    intro i h
    obtain ⟨ts, hts, hlen, hget, hdec⟩ := encodeRow_spec (m i) (hm i) l 0 (h l (by simp))
    obtain ⟨rs, hrs, hlen', hcol, hidx, hraw, hcnt⟩ := ih (i + 1) fun l hl => h l (by simp [hl])
    refine ⟨⟨ts, 0⟩ :: rs, ?_, by simp [hlen'], ?_, ?_, ?_, ?_⟩
    · simp [newRows, SafeRow.new, hts, hrs]
    · intro n
      cases n with
      | zero => simpa using hlen
      | succ n => simpa using hcol n
    · intro n j
      cases n with
      | zero => simpa [SafeRow.index] using hget j
      | succ n => simpa using hidx n j
    · intro n j
      cases n with
      | zero => simpa using hdec j
      | succ n => simpa using hraw n j
    · intro r hr
      rcases List.mem_cons.mp hr with rfl | hr
      · rfl
      · exact hcnt r hr

/-- Everything an observer can learn from a freshly encoded board. -/
theorem newRows_board (m : Nat → Nat → Mask) (hm : ∀ i j, (m i j).Ok) (b : Board)
    (hb : ∀ l ∈ b, ∀ v ∈ l, -3 ≤ v ∧ v ≤ 16) (cnt : Nat) :
    ∃ rs, newRows m b 0 = some rs ∧
      (⟨rs, cnt⟩ : SafeBoard).row = b.row ∧
      (b ≠ [] → (⟨rs, cnt⟩ : SafeBoard).col = some b.col) ∧
      (∀ i j, (⟨rs, cnt⟩ : SafeBoard).index i j = ((b[i]?).bind fun l => (l[j]?).map shown)) ∧
      (∀ r c, Rect b r c →
        (⟨rs, cnt⟩ : SafeBoard).intoVecVec = some (b.map fun l => l.map shown)) := by
  obtain ⟨rs, hrs, hlen, hcol, hidx, -, -⟩ := newRows_spec m hm b 0 hb
  have hc : b ≠ [] → (⟨rs, cnt⟩ : SafeBoard).col = some b.col := by
    intro hne
    have := hcol 0
    unfold SafeBoard.col Board.col
    cases b with
    | nil => exact absurd rfl hne
    | cons l b =>
      cases rs with
      | nil => simp at hlen
      | cons r rs => simpa using this
  refine ⟨rs, hrs, hlen, hc, fun i j => hidx i j, ?_⟩
  intro r c hrect
  unfold SafeBoard.intoVecVec
  simp only
  have hcb : ∀ l ∈ b, l.length = c := hrect.rows
  by_cases hne : b = []
  · subst hne
    have : rs = [] := by simpa using hlen
    subst this; rfl
  rw [hc hne]
  have hbc : b.col = c := hrect.col_eq (by
    have := hrect.len
    cases b with
    | nil => exact absurd rfl hne
    | cons => simp at this; omega)
  rw [hbc]
  have : ∀ (rs : List SafeRow) (b : Board), rs.length = b.length → (∀ l ∈ b, l.length = c) →
      (∀ n j : Nat, ((rs[n]?).bind fun r : SafeRow => r.index j) = ((b[n]?).bind fun l : List Int => (l[j]?).map shown)) →
      (rs.mapM fun r => do
        let c ← some c
        (List.range c).mapM r.index) = some (b.map fun l => l.map shown) := by
    intro rs
    induction rs with
    | nil =>
      intro b hl _ _
      have : b = [] := by cases b with | nil => rfl | cons => simp at hl
      subst this; rfl
    | cons r rs ih =>
      intro b hl hcb hidx
      cases b with
      | nil => simp at hl
      | cons l b =>
        have h1 := ih b (by simpa using hl) (fun l hl => hcb l (by simp [hl]))
          (fun n j => by simpa using hidx (n + 1) j)
        have h2 : (List.range c).mapM r.index = some (l.map shown) := by
          have hi : ∀ j, r.index j = (l[j]?).map shown := fun j => by simpa using hidx 0 j
          have hlc : l.length = c := hcb l (by simp)
          have hm : ∀ (n : Nat), n ≤ l.length → (List.range n).mapM r.index =
              some ((l.take n).map shown) := by
            intro n
            induction n with
            | zero => intro _; rfl
            | succ n ih =>
              intro hn
              rw [List.range_succ, List.mapM_append, ih (by omega)]
              simp only [List.mapM_cons, List.mapM_nil, hi, Option.pure_def, Option.bind_eq_bind,
                Option.bind_some]
              rw [List.getElem?_eq_getElem (by omega)]
              simp only [Option.map_some, Option.bind_some]
              rw [List.take_succ_eq_append_getElem (by omega), List.map_append]
              rfl
          have := hm c (by omega)
          rw [this, ← hlc, List.take_length]
        simp only [List.mapM_cons, Option.bind_eq_bind, Option.bind_some, List.map_cons] at h1 ⊢
        rw [h2, h1]
        rfl
  exact this rs b hlen hcb hidx

end Ms
