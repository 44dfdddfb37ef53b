import Verif.Model.Bindings

/-!
# The enumeration engine with machine words

`Model/Enum.lean` counts with unbounded numbers.  In the Rust code the counts are `usize`: 64 bits on the usual machines,
32 bits on `wasm32`, the target of the wasm package; release builds (the default of `wasm-pack build`) compute modulo
`2^32` there.  Here the same functions with all counts modulo `M`.  (Positions, indices and numbers of mines stay far below
`2^32` and are not reduced.)
-/

namespace Ms

/-- utils.rs 976-987: a leaf of the recursion, `enumLeaf` with wrapping `+=` and `*`. -/
def enumLeafW (M : Nat) (q : Squeezed) (amount : Nat) (mv : List Nat) (T : Tables) :
    Except EnumStop Tables :=
  if mv.sum ≥ T.1.length then .error (.err 5)
  else .ok (T.1.modify mv.sum fun v => (v + amount) % M,
    T.2.modify mv.sum fun row => row.mapIdx fun i v => (v + amount * mv.getD i 0 % M / q.len i) % M)

/-- `cal_table_minenum_recursion_step`, utils.rs 959-1044: `enumStep` with the wrapping product of 1026.  (The
overflow of 1017 for a number with exactly one flag too many is a panic here too, although a build without overflow checks
skips the loop: the Python and wasm functions mark the board first, after which no right-hand side is negative.) -/
def enumStepW (M : Nat) (q : Squeezed) : Nat → Nat → Nat → List Int → List Nat → Tables → Except EnumStop Tables
  | 0, _, amount, _, mv, T => enumLeafW M q amount mv T
  | r + 1, idx, amount, brem, mv, T =>
    let lu := enumLimits q idx brem
    if lu.2 = -1 then .error .panic
    else
      (enumRange lu).foldlM (fun T u => do
        let c ← cQueryE (q.len idx) u
        enumStepW M q r (idx + 1) (amount * c % M) (bremSub q idx u brem) (mv.set idx u) T) T

/-- `cal_table_minenum_recursion`, utils.rs 1046-1113, see `enumTable`. -/
def enumTableW (M : Nat) (q : Squeezed) : Option (Except Nat (List EnumLine)) :=
  if q.x.length > ENUM_LIMIT then some (.error q.x.length)
  else if q.rows = [] then none
  else
    let total := (q.groups.map List.length).sum
    match enumStepW M q q.cellsNum 0 1 (q.rows.map (·.2)) (List.replicate q.x.length 0)
      (List.replicate (total + 1) 0, List.replicate (total + 1) (List.replicate q.x.length 0)) with
    | .error .panic => none
    | .error (.err n) => some (.error n)
    | .ok T =>
      let lines := (List.range (total + 1)).zip (T.1.zip T.2)
      let front := lines.dropWhile fun l => l.2.1 = 0
      if front = [] then some (.error 1)
      else some (.ok (front.reverse.dropWhile fun l => l.2.1 = 0).reverse)

/-- algorithms.rs 598-615, see `enumBlock`: the sums of 600-602 and 607 and the product of 607 wrap. -/
def enumBlockW (M : Nat) (B : Block) : Option (List Pos × List Pos) :=
  let q := combine B
  match enumTableW M q with
  | some (.ok lines) =>
    let total := (lines.map fun l => l.2.1).sum % M
    let width := (lines.headD (0, 0, [])).2.2.length
    some ((List.range width).foldl (fun (acc : List Pos × List Pos) j =>
      let s := (lines.map fun l => l.2.2.getD j 0).sum % M
      let grp := (q.groups.getD j []).map fun k => B.x.getD k (0, 0)
      if s = 0 then (acc.1 ++ grp, acc.2)
      else if s = total * (q.groups.getD j []).length % M then (acc.1, acc.2 ++ grp)
      else acc) ([], []))
  | _ => none

/-- `solve_enumerate`, algorithms.rs 568-617, see `solveEnumerate`. -/
def solveEnumerateW (M : Nat) (S : Sys) : Option (List Pos × List Pos) :=
  if S.any fun B => B.x.length > ENUM_LIMIT then some ([], [])
  else (S.mapM (enumBlockW M)).map fun l => (l.flatMap (·.1), l.flatMap (·.2))

/-- algorithms.rs 267-293, see `possTables`. -/
def possTablesW (M : Nat) : Sys → Option (Except Nat (List (List EnumLine)))
  | [] => some (.ok [])
  | B :: S =>
    match enumTableW M (combine B) with
    | none => none
    | some (.error e) => some (.error e)
    | some (.ok l) =>
      match possTablesW M S with
      | none => none
      | some (.error e) => some (.error e)
      | some (.ok ls) => some (.ok (l :: ls))

/-- `cal_possibility`, algorithms.rs 218-420, see `calPossibility`: the tables are the wrapped ones, all further counts
are `BigNumber`s. -/
def calPossibilityW (M : Nat) (g : Board) (minenum : ℚ) : Option (Except Nat Poss) := do
  if g = [] then none
  let S ← refreshMatrixs g
  let longest := S.foldr (fun B n => max n B.x.length) 0
  let unknown := inlandCount g + ((S.filter fun B => ENUM_LIMIT < B.x.length).map fun B => B.x.length).sum
  let S := S.filter fun B => ¬ ENUM_LIMIT < B.x.length
  match ← possTablesW M S with
  | .error e => return .error e
  | .ok tabs =>
    let los ← tabs.mapM fun t => (t.map fun l => l.1).min?
    let his ← tabs.mapM fun t => (t.map fun l => l.1).max?
    match ← possTotal g minenum (markedCount g) los.sum his.sum unknown with
    | .error e => return .error e
    | .ok m =>
      let hi := min his.sum m
      if hi < los.sum then return .error 3
      let unk := rng (m - hi) (min (m - los.sum) unknown + 1)
      let ways ← unk.mapM fun k => bigC unknown k
      let O ← possOther tabs unk ways m
      let T ← possAll tabs ways O
      let ps ← S.zipIdx.mapM fun Bi => possBlock tabs O T Bi.2 Bi.1
      let u ← possRest tabs unk ways O
      return .ok {
        front := ps.flatten
        rest := if unknown = 0 then none else (u.divBig T).map fun p => p / unknown
        range := (los.sum + markedCount g, m + markedCount g, hi + markedCount g + unknown)
        longest := longest }

/-- `cal_possibility_onboard`, algorithms.rs 463-487, see `calPossibilityOnboard`. -/
def calPossibilityOnboardW (M : Nat) (g : Board) (minenum : ℚ) :
    Option (Except Nat (List (List (Option ℚ)) × Nat × Nat × Nat)) :=
    match calPossibilityW M g minenum with
    | none => none
    | some (.error e) => some (.error e)
    | some (.ok r) =>
      some (.ok ((List.range g.row).map fun i => (List.range g.col).map fun j =>
        let p : Option ℚ := match r.front.reverse.find? fun e => e.1 = (i, j) with
          | some e => e.2
          | none => some (-1)
        let low := match p with
          | some q => decide (q < -1/2)
          | none => false
        if g.get i j = 11 then some 1
        else if g.get i j = 10 ∧ low = true then r.rest
        else if g.get i j = 12 then some 0
        else if low = true then some 0
        else p, r.range))

/-- `cal_possibility_onboard` of the wasm package with the words of its target: `wasmCalPossibilityOnboard` with counts
modulo `M`. -/
def wasmCalPossibilityOnboardW (M : Nat) (g : Board) (minenum : Int) : Option (List (List (Option ℚ)) × Nat × Nat × Nat) :=
  match markBoard g with
  | none => none
  | some (_, h) =>
    match calPossibilityOnboardW M h (minenum : ℚ) with
    | none => none
    | some (.ok t) => some t
    | some (.error _) => some ([], 0, 0, 0)

end Ms
