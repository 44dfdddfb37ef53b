import Verif.Model.Poss

/-!
# The probability engine in floating point (utils.rs 642-733, algorithms.rs 218-539)

The same code as in Model/BigNumber.lean and Model/Poss.lean, but every `f64` operation rounds: `fl x` is the `f64` nearest to the
exact result `x`.  `fl` is a parameter, so the theorems hold for every rounding with a small relative error (see
SpecPossFloat.lean); Model/Time.lean has the concrete `fl64`.  `none` in a probability stands for NaN or infinity (division
by zero), as in Model/Poss.lean.  The exponents (`i32` in the code) are unbounded.
-/

namespace Ms

variable (fl : ℚ → ℚ)

namespace BigNumber

/-- `while self.a >= 10.0 { self.a /= 10.0; self.b += 1; }`, utils.rs 657-660. -/
def shrinkF : Nat → BigNumber → Option BigNumber
  | 0, n => if n.a ≥ 10 then none else some n
  | fuel + 1, n => if n.a ≥ 10 then shrinkF fuel ⟨fl (n.a / 10), n.b + 1⟩ else some n

/-- `a_become_smaller_than`, utils.rs 651-661. -/
def becomeSmallerF (n : BigNumber) (thrd : ℚ) : Option BigNumber :=
  if n.a < thrd then some n else shrinkF fl (fuelFor n.a) n

/-- `mul_usize`, utils.rs 662-671 (`k as f64` rounds). -/
def mulUsizeF (n : BigNumber) (k : Nat) : Option BigNumber :=
  if k = 0 then some ⟨0, 1⟩ else becomeSmallerF fl ⟨fl (n.a * fl k), n.b⟩ 10

/-- `mul_big_number`, utils.rs 672-677. -/
def mulF (n k : BigNumber) : Option BigNumber := becomeSmallerF fl ⟨fl (n.a * k.a), n.b + k.b⟩ 10

/-- `ka /= 10.0` repeated, utils.rs 681-684, 695-698. -/
def lowerF : Nat → ℚ → ℚ
  | 0, x => x
  | d + 1, x => lowerF d (fl (x / 10))

/-- `ans *= 10.0` repeated, utils.rs 699-702. -/
def raiseF : Nat → ℚ → ℚ
  | 0, x => x
  | d + 1, x => raiseF d (fl (x * 10))

/-- `add_big_number`, utils.rs 678-691. -/
def addF (n k : BigNumber) : Option BigNumber :=
  becomeSmallerF fl ⟨fl (lowerF fl (max n.b k.b - n.b).toNat n.a + lowerF fl (n.b - k.b).toNat k.a), max n.b k.b⟩ 10

/-- `div_big_num`, utils.rs 692-704. -/
def divBigF (n k : BigNumber) : Option ℚ :=
  if k.a = 0 then none
  else some (raiseF fl (n.b - k.b).toNat (lowerF fl (k.b - n.b).toNat (fl (n.a / k.a))))

end BigNumber

/-- Loop of `C`, utils.rs 726-730, for `i` from `i` to `k - 1`; the literal `1e208` is rounded too. -/
def chooseLoopF (n : Nat) : Nat → Nat → BigNumber → Option BigNumber
  | 0, _, c => some c
  | m + 1, i, c =>
    (BigNumber.becomeSmallerF fl ⟨fl (fl (c.a * fl ((n - i : Nat) : ℚ)) / fl ((i + 1 : Nat) : ℚ)), c.b⟩ (fl (10 ^ 208))).bind
      fun c' => chooseLoopF n m (i + 1) c'

/-- The body of `C` for `n ≥ k + k`, utils.rs 724-732. -/
def chooseCoreF (n k : Nat) : Option BigNumber :=
  (chooseLoopF fl n k 0 ⟨1, 0⟩).bind fun c => c.becomeSmallerF fl 10

/-- `C`, utils.rs 719-733. -/
def bigCF (n k : Nat) : Option BigNumber :=
  if n < k + k then
    if n < k then none
    else if n < (n - k) + (n - k) then none
    else chooseCoreF fl n (n - k)
  else chooseCoreF fl n k

/-- algorithms.rs 303-317; `(rows * columns) as f64 * minenum` rounds. -/
def possTotalF (g : Board) (minenum : ℚ) (marked lo hi unknown : Nat) : Option (Except Nat Nat) :=
  if minenum < 1 then
    let mn := ⌊fl (fl ((g.row * g.col : Nat) : ℚ) * minenum)⌋.toNat
    if mn < marked then none
    else some (.ok (min (max (mn - marked) lo) (hi + unknown)))
  else if ⌊minenum⌋.toNat < marked then some (.error 17)
  else some (.ok (⌊minenum⌋.toNat - marked))

/-- algorithms.rs 351-358 and 363-368. -/
def otherWaysF (tabs : List (List EnumLine)) (s : List Nat) (i : Nat) : Option BigNumber :=
  (List.range tabs.length).foldlM (fun (n : BigNumber) j =>
    if i ≠ j then n.mulUsizeF fl (lineAt tabs j (s.getD j 0)).2.1 else some n) ⟨1, 0⟩

/-- `table_minenum_other[i][k].add_big_number(v)`. -/
def addAtF (O : List (List BigNumber)) (i k : Nat) (v : BigNumber) : Option (List (List BigNumber)) :=
  (((O.getD i []).getD k ⟨0, 0⟩).addF fl v).map fun x => O.modify i fun l => l.set k x

/-- algorithms.rs 350-361: one block. -/
def otherBlockF (tabs : List (List EnumLine)) (unk : List Nat) (ways : List BigNumber) (m : Nat) (s : List Nat)
    (O : List (List BigNumber)) (i : Nat) : Option (List (List BigNumber)) := do
  let n ← otherWaysF fl tabs s i
  let ps ← restIndex tabs unk m s
  let n ← n.mulF fl (ways.getD ps ⟨0, 0⟩)
  addAtF fl O i (s.getD i 0) n

/-- algorithms.rs 349-371: one choice. -/
def otherChoiceF (tabs : List (List EnumLine)) (unk : List Nat) (ways : List BigNumber) (m : Nat)
    (O : List (List BigNumber)) (s : List Nat) : Option (List (List BigNumber)) := do
  let O ← (List.range tabs.length).foldlM (otherBlockF fl tabs unk ways m s) O
  let n ← otherWaysF fl tabs s tabs.length
  let ps ← restIndex tabs unk m s
  addAtF fl O tabs.length ps n

/-- algorithms.rs 342-371: `table_minenum_other`. -/
def possOtherF (tabs : List (List EnumLine)) (unk : List Nat) (ways : List BigNumber) (m : Nat) :
    Option (List (List BigNumber)) :=
  (possChoices tabs unk m).foldlM (otherChoiceF fl tabs unk ways m)
    ((tabs.map fun t => List.replicate t.length (⟨0, 0⟩ : BigNumber)) ++ [List.replicate unk.length ⟨0, 0⟩])

/-- algorithms.rs 373-378: the number of all layouts. -/
def possAllF (tabs : List (List EnumLine)) (ways : List BigNumber) (O : List (List BigNumber)) : Option BigNumber :=
  (List.range ways.length).foldlM (fun (T : BigNumber) i => do
    let t ← ((O.getD tabs.length []).getD i ⟨0, 0⟩).mulF fl (ways.getD i ⟨0, 0⟩)
    T.addF fl t) ⟨0, 0⟩

/-- algorithms.rs 385-390: the number of layouts with a mine at a cell of the merged cell `c` of block `i`. -/
def possCellF (tabs : List (List EnumLine)) (O : List (List BigNumber)) (i c : Nat) : Option BigNumber :=
  (List.range (O.getD i []).length).foldlM (fun (n : BigNumber) k => do
    let o ← ((O.getD i []).getD k ⟨0, 0⟩).mulUsizeF fl ((lineAt tabs i k).2.2.getD c 0)
    n.addF fl o) ⟨0, 0⟩

/-- algorithms.rs 398-404: the sum over all layouts of the mines away from numbers. -/
def possRestF (tabs : List (List EnumLine)) (unk : List Nat) (ways : List BigNumber) (O : List (List BigNumber)) :
    Option BigNumber :=
  (List.range unk.length).foldlM (fun (n : BigNumber) i => do
    let u ← ((O.getD tabs.length []).getD i ⟨0, 0⟩).mulF fl (ways.getD i ⟨0, 0⟩)
    let u ← u.mulUsizeF fl (unk.getD i 0)
    n.addF fl u) ⟨0, 0⟩

/-- algorithms.rs 381-396: the probabilities of the cells of block `i`, merged cell by merged cell. -/
def possBlockF (tabs : List (List EnumLine)) (O : List (List BigNumber)) (T : BigNumber) (i : Nat) (B : Block) :
    Option (List (Pos × Option ℚ)) :=
  ((List.range (combine B).groups.length).mapM fun c => do
    let n ← possCellF fl tabs O i c
    pure (((combine B).groups.getD c []).map fun k => (B.x.getD k (0, 0), n.divBigF fl T))).map List.flatten

/-- `cal_possibility`, algorithms.rs 218-420, in floating point. -/
def calPossibilityF (g : Board) (minenum : ℚ) : Option (Except Nat Poss) := do
  if g = [] then none
  let S ← refreshMatrixs g
  let longest := S.foldr (fun B n => max n B.x.length) 0
  let unknown := inlandCount g + ((S.filter fun B => ENUM_LIMIT < B.x.length).map fun B => B.x.length).sum
  let S := S.filter fun B => ¬ ENUM_LIMIT < B.x.length
  match ← possTables S with
  | .error e => return .error e
  | .ok tabs =>
    let los ← tabs.mapM fun t => (t.map fun l => l.1).min?
    let his ← tabs.mapM fun t => (t.map fun l => l.1).max?
    match ← possTotalF fl g minenum (markedCount g) los.sum his.sum unknown with
    | .error e => return .error e
    | .ok m =>
      let hi := min his.sum m
      if hi < los.sum then return .error 3
      let unk := rng (m - hi) (min (m - los.sum) unknown + 1)
      let ways ← unk.mapM fun k => bigCF fl unknown k
      let O ← possOtherF fl tabs unk ways m
      let T ← possAllF fl tabs ways O
      let ps ← S.zipIdx.mapM fun Bi => possBlockF fl tabs O T Bi.2 Bi.1
      let u ← possRestF fl tabs unk ways O
      return .ok {
        front := ps.flatten
        rest := if unknown = 0 then none else (u.divBigF fl T).map fun p => fl (p / fl unknown)
        range := (los.sum + markedCount g, m + markedCount g, hi + markedCount g + unknown)
        longest := longest }

/-- `cal_possibility_onboard`, algorithms.rs 466-489, in floating point. -/
def calPossibilityOnboardF (g : Board) (minenum : ℚ) : Option (Except Nat (List (List (Option ℚ)) × Nat × Nat × Nat)) :=
    match calPossibilityF fl g minenum with
    | none => none
    | some (.error e) => some (.error e)
    | some (.ok r) =>
      some (.ok ((List.range g.row).map fun i => (List.range g.col).map fun j =>
        let p : Option ℚ := match r.front.reverse.find? fun e => e.1 = (i, j) with
          | some e => e.2
          | none => some (-1)
        let low := match p with
          | some q => decide (q < -1/2)
          | none => false
        if g.get i j = 11 then some 1
        else if g.get i j = 10 ∧ low = true then r.rest
        else if g.get i j = 12 then some 0
        else if low = true then some 0
        else p, r.range))

/-- algorithms.rs 520-542: the inner loops of `cal_is_op_possibility_cells` for one cell `c`; `poss *= 1.0 - p` rounds twice. -/
def openLoopF (g : Board) (minenum : ℚ) (c : Pos) : List Pos → Board → Option ℚ → Option (Option ℚ)
  | [], _, p => some p
  | q :: qs, h, p =>
    if (g.get q.1 q.2 < 10 ∧ q = c) ∨ g.get q.1 q.2 = 11 then some (some 0)
    else if g.get q.1 q.2 = 12 ∨ g.get q.1 q.2 < 10 then openLoopF g minenum c qs h p
    else
      match calPossibilityOnboardF fl h minenum with
      | none => none
      | some (.error _) => some (some 0)
      | some (.ok (P, _)) =>
        openLoopF g minenum c qs (h.set q.1 q.2 12)
          (p.bind fun p => (((P.getD q.1 []).getD q.2 none).map fun x => fl (p * fl (1 - x))))

/-- `cal_is_op_possibility_cells`, algorithms.rs 510-545, in floating point. -/
def calIsOpPossibilityF (g : Board) (minenum : ℚ) (cs : List Pos) : Option (List (Option ℚ)) :=
  if g = [] then none
  else cs.mapM fun c => openLoopF fl g minenum c (block g.row g.col c.1 c.2) g (some 1)

end Ms
