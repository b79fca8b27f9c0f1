import Verif.Sort.Plain
/-!
# Model of the plaintext join and average: Join/Table.cpp 503-810
-/
namespace SecJoin
namespace Table

/-- `eq(l, r)`, Table.cpp 503-510; the `assert` on equal lengths holds for keys of equal widths. -/
def rowEqB (l r : Row) : Bool := l == r

/-! ## join -/

/-- Which table a selected column belongs to. The code compares table addresses; if left and right
table are the same object it takes the column from the right one (`&select.mTable == &r.mTable`). -/
inductive Side
  | left
  | right
  | other
deriving DecidableEq, Repr

/-- The `while` loop of `join`, Table.cpp 758-768, for the right key `rk`; `k` is the number of
left rows not yet passed, `lIdx` the current one. -/
def skip (L : List Row) (LP : List Nat) (rk : Row) : Nat → Nat → Res Nat
  | 0, lIdx => .ok lIdx
  | k + 1, lIdx => do
    let p ← rd LP lIdx
    let x ← rd L p
    if lessThan x rk then do
      (if lIdx ≠ 0 then do
        let q ← rd LP (lIdx - 1)
        let y ← rd L q
        throwIf (rowEqB y x)
      else .ok () : Res Unit)
      skip L LP rk k (lIdx + 1)
    else .ok lIdx

/-- The main loop of `join`, Table.cpp 755-777: `k` right rows are left, the next has sorted position
`i`. The result lists (left row, right row, position). -/
def mergeLoop (L R : List Row) (LP RP : List Nat) : Nat → Nat → Nat → Res (List (Nat × Nat × Nat))
  | 0, _, _ => .ok []
  | k + 1, i, lIdx => do
    let ri ← rd RP i
    let rk ← rd R ri
    let lIdx ← skip L LP rk (L.length - lIdx) lIdx
    if lIdx < L.length then do
      let p ← rd LP lIdx
      let x ← rd L p
      let I ← mergeLoop L R LP RP k (i + 1) lIdx
      .ok (if rowEqB x rk then (p, ri, i) :: I else I)
    else mergeLoop L R LP RP k (i + 1) lIdx

/-- Copying one cell of the result, Table.cpp 803; `copyBytes` of different lengths throws. -/
def joinCell (e : Nat × Nat × Nat) (s : Side × Column) (c : Column) : Res Column := do
  let src ← rd s.2.data.rows (if s.1 = .right then e.2.1 else e.1)
  let dst ← rd c.data.rows e.2.2
  throwIf (src.length != dst.length)
  .ok { c with data := { c.data with rows := c.data.rows.set e.2.2 src } }

/-- Copying one row of the result, Table.cpp 794-804. -/
def joinRow (e : Nat × Nat × Nat) : List (Side × Column) → List Column → Res (List Column)
  | s :: ss, c :: cs => do
    let c ← joinCell e s c
    let cs ← joinRow e ss cs
    .ok (c :: cs)
  | _, _ => .ok []

/-- The output loop of `join`, Table.cpp 791-807. -/
def joinOut (select : List (Side × Column)) : List (Nat × Nat × Nat) → Table → Res Table
  | [], t => .ok t
  | e :: es, t => do
    let cols ← joinRow e select t.cols
    let a ← wr t.isActive e.2.2 1
    joinOut select es ⟨a, cols⟩

/-- `join(l, r, select)`, Table.cpp 742-810. The key columns are given with their data; the active
flags of the inputs are not used by the code. -/
def join (l r : Column) (select : List (Side × Column)) : Res Table := do
  throwIf (l.info.bits != r.info.bits)
  let LP := plainSort l.data.rows
  let RP := plainSort r.data.rows
  let I ← mergeLoop l.data.rows r.data.rows LP RP r.data.rows.length 0 0
  throwIf (select.any fun s => s.1 == .other)
  let ret ← init r.data.rows.length (select.map fun s => s.2.info)
  joinOut select I { ret with isActive := List.replicate r.data.rows.length 0 }

end Table
end SecJoin
