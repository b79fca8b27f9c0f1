import Verif.Sort.Plain
import Verif.Table.JoinModel
/-!
# Model of the plaintext group-by average: Join/Table.cpp 503-603, 606-736
-/
namespace SecJoin
namespace Table

/-- The `k` little-endian bytes of a number. -/
def leBytes (k v : Nat) : Row := (List.range k).map fun i => BitVec.ofNat 8 (v / 256 ^ i)

/-- The second input of the adder, `cirEval`, Table.cpp 592-596: `8*bytes - bits` zero bits are put in
front of (below) the `bits` data bits. -/
def addend (bits : Nat) (r : Row) : Nat :=
  bytesNat r % 2 ^ bits * 2 ^ (divCeil bits 8 * 8 - bits)

/-- `cirEval` with the adder circuit of the library, Table.cpp 589-603. `int_int_add` (an external
circuit library) is modelled as addition modulo `2^size`. -/
def cirEval (bits acc : Nat) (r : Row) : Nat := (acc + addend bits r) % 2 ^ (divCeil bits 8 * 8)

/-- Copying one cell, `copyBytes` refuses different lengths. -/
def setCell (row : Nat) (c : Column) (x : Row) : Res Column := do
  let old ← rd c.data.rows row
  throwIf (old.length != x.length)
  .ok { c with data := { c.data with rows := c.data.rows.set row x } }

/-- Copying the cells of a row. -/
def setCells (row : Nat) : List Column → List Row → Res (List Column)
  | c :: cs, x :: xs => do
    let c ← setCell row c x
    let cs ← setCells row cs xs
    .ok (c :: cs)
  | _, _ => .ok []

/-- The accumulators: one sum for each averaged column, and the count. -/
structure Acc where
  sums : List Nat
  cnt : Nat

/-- The cells copied by `copyTableEntry`, Table.cpp 530-547. -/
def accCells (key : Row) (avg : List Column) (a : Acc) : List Row :=
  key :: (List.zipWith (fun c s => leBytes (divCeil c.info.bits 8) s) avg a.sums ++ [leBytes 8 a.cnt])

/-- `copyTableEntry(out, groupByCol, avgCol, inputs, oldActFlag, row)`, Table.cpp 514-549. -/
def copyTableEntry (out : Table) (K : List Row) (avg : List Column) (a : Acc) (act : List Byte)
    (row : Nat) : Res Table := do
  let f ← (if act.length > 0 then rd act row else .ok 1 : Res Byte)
  let fl ← wr out.isActive row f
  if f = 0 then .ok ⟨fl, out.cols⟩
  else do
    let k ← rd K row
    let cols ← setCells row out.cols (accCells k avg a)
    .ok ⟨fl, cols⟩

/-- The empty accumulators, Table.cpp 650-666 and 675-683. -/
def acc0 (avg : List Column) : Acc := ⟨avg.map fun _ => 0, 0⟩

/-- One step of all adders, Table.cpp 688-705; the column of ones is a 64-bit column. -/
def accStep (avg : List Column) (row : Nat) (a : Acc) : Acc :=
  ⟨List.zipWith (fun c s => cirEval c.info.bits s (c.data.rows.getD row [])) avg a.sums,
   (a.cnt + 1) % 2 ^ 64⟩

/-- The row loop of `average`, Table.cpp 668-710, from the last row to the first: `j` rows are left,
the next is `j - 1`. -/
def avgLoop (K : List Row) (avg : List Column) (act : List Byte) : Nat → Acc → Table → Res Table
  | 0, _, out => .ok out
  | k + 1, a, out => do
    let (a, out) ← (if k + 1 < K.length ∧ rowEqB (K.getD k []) (K.getD (k + 1) []) = false then do
        let out ← copyTableEntry out K avg a act (k + 1)
        .ok (acc0 avg, out)
      else .ok (a, out) : Res (Acc × Table))
    let a := accStep avg k a
    let out ← (if k = 0 then copyTableEntry out K avg a act k else .ok out : Res Table)
    avgLoop K avg act k a out

/-- Permuting the data of one column, Table.cpp 617-620 and 627-633, 718-725: the bit count of the new
matrix is the byte count times 8. -/
def permuteBytes (p : Perm) (op : PermOp) (c : Column) : Res Column := do
  let r ← p.apply c.data.mat ⟨c.data.cols, List.replicate c.data.rows.length (List.replicate c.data.cols 0)⟩ op
  .ok { c with data := ⟨c.data.cols * 8, c.data.cols, r.rows⟩ }

/-- Column of the output with the name and type of `c`, `populateOutTable`, Table.cpp 552-586. -/
def outColumn (n : Nat) (name : List Byte) (type : ColumnType) (bytes : Nat) : Column :=
  ⟨⟨name, type, bytes * 8⟩, ⟨bytes * 8, bytes, List.replicate n (List.replicate bytes 0)⟩⟩

/-- The name "Count". -/
def countName : List Byte := [67, 111, 117, 110, 116]

/-- `populateOutTable`, Table.cpp 552-586. -/
def outColumns (n : Nat) (key : Column) (avg : List Column) : List Column :=
  outColumn n key.info.name key.info.type (divCeil key.info.bits 8) ::
    (avg.map (fun c => outColumn n c.info.name c.info.type (divCeil c.info.bits 8)) ++
      [outColumn n countName .int 8])

/-- `average(groupByCol, avgCol)`, Table.cpp 606-736, with `act` the active flags of the table. The
group column and the averaged columns are taken to be different columns (the code permutes the
shared data of a column once for each mention of it). -/
def average (key : Column) (avg : List Column) (act : List Byte) : Res Table := do
  let p : Perm := ⟨plainSort key.data.rows⟩
  let key' ← permuteBytes p .regular key
  let act' ← (if act.length > 0 then p.applyVec 0 act .regular else .ok act : Res (List Byte))
  let avg' ← mapRes (permuteBytes p .regular) avg
  let n := key.data.rows.length
  let out : Table := ⟨List.replicate n 0, outColumns n key avg⟩
  let out ← avgLoop key'.data.rows avg' act' n (acc0 avg) out
  let cols ← mapRes (permuteBytes p .inverse) out.cols
  let fl ← p.applyVec 0 out.isActive .inverse
  .ok ⟨fl, cols⟩

end Table
end SecJoin
