import Verif.GMW.Inline
import Verif.Table.Model
import Verif.Join.OmModel
/-!
# The filter: TableOps/Where

Model of `/repo/secure-join/TableOps/Where.cpp`. GMW is its functionality: for every row the clause is evaluated on the
reconstructed inputs, party 0 gets an arbitrary mask and party 1 the mask XOR the result (C24). Wires that are not inputs
hold arbitrary values at first. The optional removal of inactive rows is `Extract`.
-/
namespace SecJoin
namespace WhereT

open Gmw

/-- `addInputBundle` for bundles of the given sizes: consecutive wires, beginning with `next`. -/
def bundles : Nat → List Nat → List (List Nat)
  | _, [] => []
  | next, s :: r => List.range' next s :: bundles (next + s) r

/-- `makeWhereClause(cir)`, Where.cpp 8-37. After the inputs come the wire of the flag, the output and a temporary wire
for the output of `cir`, of which there must be one. -/
def makeWhereClause (junk : Nat) (c : Circuit) : Res Circuit := do
  throwIf (c.outputs.length != 1)
  let inputs := bundles 0 (c.inputs.map List.length)
  let n := inputs.flatten.length
  let p ← evaluate junk ⟨n + 3, []⟩ c inputs [[n + 2]]
  .ok ⟨inputs ++ [[n]], [[n + 1]], p.wires, p.gates ++ [⟨n + 2, n, n + 1, .and⟩], fun _ => .plain⟩

/-- The state after `init`, Where.h 22-43. -/
structure Where where
  rows : Nat
  columns : List ColumnInfo
  whereInputs : List Nat
  clause : Circuit

/-- The checks on the columns, Where.cpp 51-57. -/
def checkInputs (columns : List ColumnInfo) : List Nat → List (List Nat) → Res Unit
  | [], _ => .ok ()
  | _ :: _, [] => .error .ub
  | i :: is, w :: ws =>
    match columns[i]? with
    | none => .error .throw
    | some ci => do
      throwIf (ci.bits != w.length)
      checkInputs columns is ws

/-- `init(rows, columns, whereInputs, cir, ole, false)`, Where.cpp 39-73. `old` is `mColumns` before the call, to which
the columns of the predicate are appended. -/
def init (junk : Nat) (old : List ColumnInfo) (rows : Nat) (columns : List ColumnInfo) (whereInputs : List Nat) (c : Circuit) :
    Res Where := do
  throwIf (c.inputs.length != whereInputs.length)
  throwIf (c.outputs.length != 1)
  checkInputs columns whereInputs c.inputs
  let cl ← makeWhereClause junk c
  .ok ⟨rows, old ++ whereInputs.map (fun i => columns.getD i ⟨[], .int, 0⟩), whereInputs, cl⟩

/-- `Gmw::setInput` for an input of `wires` wires, Gmw.cpp 42-61: the rows kept. Without wires the first one is
accessed out of bounds, Gmw.cpp 113-125. -/
def setInput (n wires cols : Nat) (m : List Row) : Res (List Row) := do
  if wires = 0 then .error .ub
  else do
    throwIf (divCeil wires 8 != cols)
    throwIf (m.length != n)
    .ok m

/-- Setting the columns as inputs, Where.cpp 93-94. -/
def setCols (n : Nat) (t : Table) : List Nat → List (List Nat) → Res (List (List Row))
  | [], _ => .ok []
  | _ :: _, [] => .error .throw
  | i :: is, w :: ws => do
    let c ← rd t.cols i
    let m ← setInput n w.length c.data.cols c.data.rows
    let r ← setCols n t is ws
    .ok (m :: r)

/-- The part of `where` of one party up to the run, Where.cpp 81-94: the inputs, that of the flag last. -/
def setInputs (w : Where) (t : Table) : Res (List (List Row)) := do
  throwIf (t.cols.length != w.columns.length)
  throwIf (t.rows != w.rows)
  throwIf (t.cols.map (·.info) != w.columns)
  let f ← setInput w.rows 1 1 (t.isActive.map fun b => [b])
  let ms ← setCols w.rows t w.whereInputs w.clause.inputs
  .ok (ms ++ [f])

/-- The bits of row `i` of both parties' inputs together. -/
def inBits (i : Nat) : List (List Nat) → List (List Row) → List (List Row) → List (List Bool)
  | w :: ws, a :: as, b :: bs =>
    ((List.range w.length).map fun j =>
      OmJoin.keyBit 0 (a.getD i []) j ^^ OmJoin.keyBit 0 (b.getD i []) j) :: inBits i ws as bs
  | _, _, _ => []

/-- `where(input, output)`, Where.cpp 75-111, of both parties. `v` is what the wires hold at first, `r` is party 0's share
of the new flags. -/
def whereBoth (w : Where) (t0 t1 : Table) (v : Nat → Nat → Bool) (r : Nat → Bool) : Res (Table × Table) := do
  let a ← setInputs w t0
  let b ← setInputs w t1
  let out i := evalGates w.clause.gates (place w.clause.inputs.flatten (inBits i w.clause.inputs a b).flatten (v i))
    (w.clause.outputs.flatten.getD 0 0)
  let byte (x : Bool) : Byte := if x then 1 else 0
  .ok (⟨(List.range w.rows).map fun i => byte (r i), t0.cols⟩, ⟨(List.range w.rows).map fun i => byte (r i ^^ out i), t1.cols⟩)

end WhereT
end SecJoin
