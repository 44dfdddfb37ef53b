import Verif.Model.Enum

/-!
# The probability engine: `cal_possibility`, `cal_possibility_onboard`, `cal_is_op_possibility_cells`
(algorithms.rs 218-539)

A probability is an `Option ℚ`: exact rational arithmetic stands for `f64`, and `none` stands for NaN or infinity (a
division by zero).  Exponents of `BigNumber` are unbounded.  The outer `Option` of the results is `none` for a panic.
-/

namespace Ms

/-- `multi_cartesian_product`, the last component varies fastest. -/
def product : List (List Nat) → List (List Nat)
  | [] => [[]]
  | r :: rs => r.flatMap fun a => (product rs).map fun l => a :: l

/-- algorithms.rs 267-293: one table per block, or the first error. -/
def possTables : Sys → Option (Except Nat (List (List EnumLine)))
  | [] => some (.ok [])
  | B :: S =>
    match enumTable (combine B) with
    | none => none
    | some (.error e) => some (.error e)
    | some (.ok l) =>
      match possTables S with
      | none => none
      | some (.error e) => some (.error e)
      | some (.ok ls) => some (.ok (l :: ls))

/-- algorithms.rs 303-317: how many mines are still to be placed; `lo`, `hi` are the bounds for the mines next to
numbers, `unknown` the number of other covered cells.  A number below 1 is a density.  `none`: the subtraction
`mn - is_minenum` underflows (in a release build it wraps); `.error 17`: more marked mines than
mines. -/
def possTotal (g : Board) (minenum : ℚ) (marked lo hi unknown : Nat) : Option (Except Nat Nat) :=
  if minenum < 1 then
    let mn := ⌊((g.row * g.col : Nat) : ℚ) * minenum⌋.toNat
    if mn < marked then none
    else some (.ok (min (max (mn - marked) lo) (hi + unknown)))
  else if ⌊minenum⌋.toNat < marked then some (.error 17)
  else some (.ok (⌊minenum⌋.toNat - marked))

/-- `table_minenum_s[j][..][k]` with `table_cell_minenum_s[j][k]`. -/
def lineAt (tabs : List (List EnumLine)) (j k : Nat) : EnumLine := (tabs.getD j []).getD k (0, 0, [])

/-- `table_minenum_s[j][0][s[j]]`, the number of mines the choice `s` puts into block `j`. -/
def minesIn (tabs : List (List EnumLine)) (s : List Nat) (j : Nat) : Nat := (lineAt tabs j (s.getD j 0)).1

/-- algorithms.rs 324-339: `mine_in_each_block`, the choices of one line per block and one entry of `unk` (last) that
add up to `m` mines. -/
def possChoices (tabs : List (List EnumLine)) (unk : List Nat) (m : Nat) : List (List Nat) :=
  (product ((tabs.map fun t => List.range t.length) ++ [List.range unk.length])).filter fun s =>
    ((List.range tabs.length).map (minesIn tabs s)).sum + unk.getD (s.getD tabs.length 0) 0 = m

/-- algorithms.rs 351-358 and 363-368: the number of ways to fill the blocks other than `i` as the choice says. -/
def otherWays (tabs : List (List EnumLine)) (s : List Nat) (i : Nat) : Option BigNumber :=
  (List.range tabs.length).foldlM (fun (n : BigNumber) j =>
    if i ≠ j then n.mulUsize (lineAt tabs j (s.getD j 0)).2.1 else some n) ⟨1, 0⟩

/-- algorithms.rs 352-359 and 364-369: the position in `unk` of the mines left over; `none`: underflow or `unwrap` of
`None`. -/
def restIndex (tabs : List (List EnumLine)) (unk : List Nat) (m : Nat) (s : List Nat) : Option Nat :=
  let used := ((List.range tabs.length).map (minesIn tabs s)).sum
  if m < used then none else unk.findIdx? fun x => x = m - used

/-- `table_minenum_other[i][k].add_big_number(v)`. -/
def addAt (O : List (List BigNumber)) (i k : Nat) (v : BigNumber) : Option (List (List BigNumber)) :=
  (((O.getD i []).getD k ⟨0, 0⟩).add v).map fun x => O.modify i fun l => l.set k x

/-- algorithms.rs 350-361: one block. -/
def otherBlock (tabs : List (List EnumLine)) (unk : List Nat) (ways : List BigNumber) (m : Nat) (s : List Nat)
    (O : List (List BigNumber)) (i : Nat) : Option (List (List BigNumber)) := do
  let n ← otherWays tabs s i
  let ps ← restIndex tabs unk m s
  let n ← n.mul (ways.getD ps ⟨0, 0⟩)
  addAt O i (s.getD i 0) n

/-- algorithms.rs 349-371: one choice. -/
def otherChoice (tabs : List (List EnumLine)) (unk : List Nat) (ways : List BigNumber) (m : Nat)
    (O : List (List BigNumber)) (s : List Nat) : Option (List (List BigNumber)) := do
  let O ← (List.range tabs.length).foldlM (otherBlock tabs unk ways m s) O
  let n ← otherWays tabs s tabs.length
  let ps ← restIndex tabs unk m s
  addAt O tabs.length ps n

/-- algorithms.rs 342-371: `table_minenum_other`. -/
def possOther (tabs : List (List EnumLine)) (unk : List Nat) (ways : List BigNumber) (m : Nat) :
    Option (List (List BigNumber)) :=
  (possChoices tabs unk m).foldlM (otherChoice tabs unk ways m)
    ((tabs.map fun t => List.replicate t.length (⟨0, 0⟩ : BigNumber)) ++ [List.replicate unk.length ⟨0, 0⟩])

/-- algorithms.rs 373-378: the number of all layouts. -/
def possAll (tabs : List (List EnumLine)) (ways : List BigNumber) (O : List (List BigNumber)) : Option BigNumber :=
  (List.range ways.length).foldlM (fun (T : BigNumber) i => do
    let t ← ((O.getD tabs.length []).getD i ⟨0, 0⟩).mul (ways.getD i ⟨0, 0⟩)
    T.add t) ⟨0, 0⟩

/-- algorithms.rs 385-390: the number of layouts with a mine at a cell of the merged cell `c` of block `i`. -/
def possCell (tabs : List (List EnumLine)) (O : List (List BigNumber)) (i c : Nat) : Option BigNumber :=
  (List.range (O.getD i []).length).foldlM (fun (n : BigNumber) k => do
    let o ← ((O.getD i []).getD k ⟨0, 0⟩).mulUsize ((lineAt tabs i k).2.2.getD c 0)
    n.add o) ⟨0, 0⟩

/-- algorithms.rs 398-404: the sum over all layouts of the mines away from numbers. -/
def possRest (tabs : List (List EnumLine)) (unk : List Nat) (ways : List BigNumber) (O : List (List BigNumber)) :
    Option BigNumber :=
  (List.range unk.length).foldlM (fun (n : BigNumber) i => do
    let u ← ((O.getD tabs.length []).getD i ⟨0, 0⟩).mul (ways.getD i ⟨0, 0⟩)
    let u ← u.mulUsize (unk.getD i 0)
    n.add u) ⟨0, 0⟩

/-- algorithms.rs 381-396: the probabilities of the cells of block `i`, merged cell by merged cell. -/
def possBlock (tabs : List (List EnumLine)) (O : List (List BigNumber)) (T : BigNumber) (i : Nat) (B : Block) :
    Option (List (Pos × Option ℚ)) :=
  ((List.range (combine B).groups.length).mapM fun c => do
    let n ← possCell tabs O i c
    pure (((combine B).groups.getD c []).map fun k => (B.x.getD k (0, 0), n.divBig T))).map List.flatten

/-- The result of `cal_possibility`: the probabilities of the cells next to numbers, that of any other covered cell,
the three mine numbers, the longest block. -/
structure Poss where
  front : List (Pos × Option ℚ)
  rest : Option ℚ
  range : Nat × Nat × Nat
  longest : Nat
deriving DecidableEq

/-- `cal_possibility`, algorithms.rs 218-420.  (A board without rows panics in `refresh_matrixs`.) -/
def calPossibility (g : Board) (minenum : ℚ) : Option (Except Nat Poss) := do
  if g = [] then none
  let S ← refreshMatrixs g
  let longest := S.foldr (fun B n => max n B.x.length) 0
  let unknown := inlandCount g + ((S.filter fun B => ENUM_LIMIT < B.x.length).map fun B => B.x.length).sum
  let S := S.filter fun B => ¬ ENUM_LIMIT < B.x.length
  match ← possTables S with
  | .error e => return .error e
  | .ok tabs =>
    let los ← tabs.mapM fun t => (t.map fun l => l.1).min?
    let his ← tabs.mapM fun t => (t.map fun l => l.1).max?
    match ← possTotal g minenum (markedCount g) los.sum his.sum unknown with
    | .error e => return .error e
    | .ok m =>
      let hi := min his.sum m
      if hi < los.sum then return .error 3
      let unk := rng (m - hi) (min (m - los.sum) unknown + 1)
      let ways ← unk.mapM fun k => bigC unknown k
      let O ← possOther tabs unk ways m
      let T ← possAll tabs ways O
      let ps ← S.zipIdx.mapM fun Bi => possBlock tabs O T Bi.2 Bi.1
      let u ← possRest tabs unk ways O
      return .ok {
        front := ps.flatten
        rest := if unknown = 0 then none else (u.divBig T).map fun p => p / unknown
        range := (los.sum + markedCount g, m + markedCount g, hi + markedCount g + unknown)
        longest := longest }

/-- `cal_possibility_onboard`, algorithms.rs 463-487: the matrix of probabilities (a NaN compares false with `-0.5`) and
the three mine numbers.  A cell without entry in `front` holds `-1` before the last loop; the entries of `front` are
never below `-0.5`. -/
def calPossibilityOnboard (g : Board) (minenum : ℚ) : Option (Except Nat (List (List (Option ℚ)) × Nat × Nat × Nat)) :=
    match calPossibility g minenum with
    | none => none
    | some (.error e) => some (.error e)
    | some (.ok r) =>
      some (.ok ((List.range g.row).map fun i => (List.range g.col).map fun j =>
        let p : Option ℚ := match r.front.reverse.find? fun e => e.1 = (i, j) with
          | some e => e.2
          | none => some (-1)
        let low := match p with
          | some q => decide (q < -1/2)
          | none => false
        if g.get i j = 11 then some 1
        else if g.get i j = 10 ∧ low = true then r.rest
        else if g.get i j = 12 then some 0
        else if low = true then some 0
        else p, r.range))

/-- algorithms.rs 517-537: the inner loops of `cal_is_op_possibility_cells` for one cell `c`, from the modified board and
the probability so far (`NaN` absorbs products). -/
def openLoop (g : Board) (minenum : ℚ) (c : Pos) : List Pos → Board → Option ℚ → Option (Option ℚ)
  | [], _, p => some p
  | q :: qs, h, p =>
    if (g.get q.1 q.2 < 10 ∧ q = c) ∨ g.get q.1 q.2 = 11 then some (some 0)
    else if g.get q.1 q.2 = 12 ∨ g.get q.1 q.2 < 10 then openLoop g minenum c qs h p
    else
      match calPossibilityOnboard h minenum with
      | none => none
      | some (.error _) => some (some 0)
      | some (.ok (P, _)) =>
        openLoop g minenum c qs (h.set q.1 q.2 12)
          (p.bind fun p => (((P.getD q.1 []).getD q.2 none).map fun x => p * (1 - x)))

/-- `cal_is_op_possibility_cells`, algorithms.rs 507-539. -/
def calIsOpPossibility (g : Board) (minenum : ℚ) (cs : List Pos) : Option (List (Option ℚ)) :=
  if g = [] then none
  else cs.mapM fun c => openLoop g minenum c (block g.row g.col c.1 c.2) g (some 1)

end Ms
