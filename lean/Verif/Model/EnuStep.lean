import Verif.Model.Basic

/-! # `enuOneStep` (utils.rs 888-938) -/

namespace Ms

/-- `l.combinations(k)` of itertools: in lexicographic order -/
def combs : List Nat → Nat → List (List Nat)
  | _, 0 => [[]]
  | [], _ + 1 => []
  | a :: l, k + 1 => (combs l k).map (a :: ·) ++ combs l (k + 1)

/-- `enumerateSub`, utils.rs 888-898. -/
def enumerateSub (col minenum : Nat) : List (List Nat) :=
  (combs (List.range col) minenum).map fun i => i.foldl (fun r j => r.set j 1) (List.replicate col 0)

/-- The loops of lines 924-926 and 929-932: `row[ids[t]] = vals[t]` for all `t`; `none` is a panic. -/
def fillRow (row : List Nat) (ids vals : List Nat) : Option (List Nat) :=
  (ids.zip vals).foldlM (m := Option) (fun r q => if q.1 < r.length then some (r.set q.1 q.2) else none) row

/-- Lines 904-908: the unknown cells (2) of the first row. -/
def newIds (all : List (List Nat)) (ids : List Nat) : Option (List Nat) :=
  ids.foldlM (m := Option)
    (fun acc i => all[0]?.bind fun r => r[i]?.map fun c => if c = 2 then acc ++ [i] else acc) []

/-- Lines 911-916: the mines missing in a row. -/
def extraMine (row : List Nat) (ids : List Nat) (b : Int) : Option Int :=
  ids.foldlM (m := Option) (fun e j => row[j]?.map fun c => if c = 1 then e - 1 else e) b

/-- Lines 917-933 on a row that is kept: `tab` with row `i` replaced and the further rows appended. -/
def enuKeep (newId : List Nat) (tab : List (List Nat)) (i : Nat) (row : List Nat) (extra : Nat) : Option (List (List Nat)) :=
  match enumerateSub newId.length extra with
  | [] => none
  | first :: rest =>
    (fillRow row newId first).bind fun row' =>
      rest.foldlM (m := Option) (fun tab a => (fillRow row' newId a).map fun r => tab ++ [r]) (tab.set i row')

/-- One turn of the loop of lines 910-934; the state is `(AllTable, DelId)`. -/
def enuTurn (ids newId : List Nat) (b : Int) (st : List (List Nat) × List Nat) (i : Nat) :
    Option (List (List Nat) × List Nat) :=
  st.1[i]?.bind fun row => (extraMine row ids b).bind fun extra =>
    if extra < 0 ∨ extra.toNat > newId.length then some (st.1, st.2 ++ [i])
    else (enuKeep newId st.1 i row extra.toNat).map fun tab => (tab, st.2)

/-- `enuOneStep`, utils.rs 901-938.  `none` is a panic (an index out of bounds). -/
def enuOneStep (all : List (List Nat)) (ids : List Nat) (b : Int) : Option (List (List Nat)) :=
  (newIds all ids).bind fun newId =>
    ((List.range all.length).foldlM (m := Option) (enuTurn ids newId b) (all, [])).map fun st =>
      (st.2.mergeSort fun a b => decide (b ≤ a)).foldl (fun t i => t.eraseIdx i) st.1

end Ms
