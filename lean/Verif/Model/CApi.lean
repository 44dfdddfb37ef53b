/-!
# The boards handed to C programs (c/src/lib.rs)

The heap is a map from pointers to allocated blocks; a block remembers the layout it was allocated with. Reading outside a
block and giving a block back with another layout are undefined behaviour (`none`). Only pointers to the start of a block
occur. `α` is the type of the cells: `i32` (4 bytes) or `f64` (8 bytes); `w` is the size of a pointer. How far a vector's
capacity exceeds its length is the allocator's choice: a parameter. The intermediate blocks of a growing vector are not
modelled. (The crate imports `cal3BV`, which base no longer exports.)
-/

namespace Ms

/-- `std::alloc::Layout` -/
structure CLayout where
  size : Nat
  align : Nat
  deriving DecidableEq, Repr

/-- `Row` and `RowPoss`, c/src/lib.rs 21-25, 33-37 -/
structure CRow where
  cells : Nat
  nColumn : Nat
  deriving DecidableEq, Repr

/-- `Board` and `BoardPoss`, c/src/lib.rs 27-31, 39-43 -/
structure CBoard where
  rows : Nat
  nRow : Nat
  deriving DecidableEq, Repr

/-- the contents of a block -/
inductive CData (α : Type)
  | cells (l : List α)
  | rows (l : List CRow)

/-- the heap; 0 stands for the dangling pointer of an empty vector -/
structure CHeap (α : Type) where
  block : Nat → Option (CLayout × CData α)
  next : Nat

/-- a vector of capacity `cap` with elements of `size` bytes; an empty capacity allocates nothing -/
def CHeap.vec {α : Type} (h : CHeap α) (size align cap : Nat) (d : CData α) : CHeap α × Nat :=
  if cap = 0 then (h, 0)
  else ({ block := fun p => if p = h.next then some (⟨cap * size, align⟩, d) else h.block p, next := h.next + 1 }, h.next)

/-- `dealloc`: undefined unless the block exists and was allocated with this layout -/
def CHeap.dealloc {α : Type} (h : CHeap α) (p : Nat) (lay : CLayout) : Option (CHeap α) :=
  match h.block p with
  | none => none
  | some (l, _) => if l = lay then some { h with block := fun q => if q = p then none else h.block q } else none

/-- the rows of a matrix, each with its capacity, and the pointers to them -/
def CHeap.vecs {α : Type} (size : Nat) : CHeap α → List (Nat × List α) → CHeap α × List Nat
  | h, [] => (h, [])
  | h, (cap, l) :: rest =>
    let (h', p) := h.vec size size cap (.cells l)
    let (h'', ps) := CHeap.vecs size h' rest
    (h'', p :: ps)

/-- `vec_board_to_struct_board`, c/src/lib.rs 112-129, and the end of `cal_possibility_onboard`, 188-205: the vectors are
forgotten, not freed. Every row is given the length of the first one. `Row` has two machine words. -/
def CHeap.toC {α : Type} (h : CHeap α) (size w : Nat) (m : List (Nat × List α)) (rcap : Nat) : CHeap α × CBoard :=
  let (h', ps) := h.vecs size m
  let n := ((m.map (·.2.length)).head?).getD 0
  let (h'', p) := h'.vec (2 * w) w rcap (.rows (ps.map fun q => ⟨q, n⟩))
  (h'', ⟨p, m.length⟩)

/-- the cells of one row: `slice::from_raw_parts(rows_ptr[i].cells, n_column)` -/
def CHeap.readRow {α : Type} (h : CHeap α) (r : CRow) : Option (List α) :=
  if r.nColumn = 0 then some []
  else match h.block r.cells with
    | some (_, .cells l) => if r.nColumn ≤ l.length then some (l.take r.nColumn) else none
    | _ => none

/-- `struct_board_to_vec_board`, c/src/lib.rs 99-110 (also the beginning of `cal_possibility_onboard`, 178-187) -/
def CHeap.fromC {α : Type} (h : CHeap α) (b : CBoard) : Option (List (List α)) :=
  if b.nRow = 0 then some []
  else match h.block b.rows with
    | some (_, .rows l) => if b.nRow ≤ l.length then (l.take b.nRow).mapM h.readRow else none
    | _ => none

/-- `free_board`, c/src/lib.rs 221-233 (`size = 4`), and `free_board_poss`, 236-258 (`size = 8`): the loop over the rows.
`n` is the `n_column` of the first row. -/
def CHeap.freeRows {α : Type} (size n : Nat) : CHeap α → List CRow → Option (CHeap α)
  | h, [] => some h
  | h, r :: rs => (h.dealloc r.cells ⟨n, size⟩).bind fun h' => CHeap.freeRows size n h' rs

/-- `free_board` and `free_board_poss`, c/src/lib.rs 221-258: the sizes passed are the numbers of elements, not of bytes, and
the alignment of the rows is the size of a row. -/
def CHeap.freeBoard {α : Type} (h : CHeap α) (size w : Nat) (b : CBoard) : Option (CHeap α) :=
  if b.nRow = 0 then h.dealloc b.rows ⟨0, 2 * w⟩
  else match h.block b.rows with
    | some (_, .rows l) =>
      if b.nRow ≤ l.length then
        (CHeap.freeRows size ((l.map (·.nColumn)).head?.getD 0) h (l.take b.nRow)).bind fun h' => h'.dealloc b.rows ⟨b.nRow, 2 * w⟩
      else none
    | _ => none

end Ms
