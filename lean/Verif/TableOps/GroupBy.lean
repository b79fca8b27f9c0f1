import Verif.Join.OmModel
import Verif.GMW.Spec
import Verif.TableOps.Extract
/-!
# Group-by with sums and counts

Model of `/repo/secure-join/TableOps/GroupBy.{h,cpp}`. Both parties run in lockstep. What GMW computes (control bits,
aggregation tree, active flag) is its functionality: party 0 gets an arbitrary mask, party 1 the mask XOR the result (C24).
The adder of the circuit library is addition modulo a power of two. The sort, the permutation correlations, the control
bit circuit, the tree and the removal of inactive rows are the models of their own. Printing is left out.
-/
namespace SecJoin
namespace GroupBy

open OmJoin (colBytes starts putCols putCol slice controlBits shareRows)

/-- One party's input: the column to group by, the columns to add up and the flags of their table. Columns of another table
are refused, GroupBy.cpp 119-123; here all columns are of one table. -/
structure Inp where
  key : Column
  avg : List Column
  act : List Byte

/-- `mIsActive[i]` with bit 0 written into bit `k % 8` of a byte, as `BitIterator` does. -/
def setBit (b : Byte) (k : Nat) (v : Bool) : Byte :=
  (b &&& ~~~ (BitVec.ofNat 8 (2 ^ (k % 8)))) ||| (if v then BitVec.ofNat 8 (2 ^ (k % 8)) else 0)

/-- One row of `keys`, GroupBy.cpp 58-61: the bytes of the key, with the flag as the bit after its `bits` bits. -/
def keyRow (bits : Nat) (r : Row) (f : Byte) : Row :=
  (List.range (divCeil (bits + 1) 8)).map fun j =>
    if j = bits / 8 then setBit (r.getD j 0) bits (f.getLsbD 0) else r.getD j 0

/-- `loadKeys`, GroupBy.cpp 43-83. `cs` is `mStatSecParam + log2ceil(rows)`. Longer keys are encoded by a fixed random
linear code `enc`, whose library is outside of the repository. Flags are needed for all rows: without them the access is
out of bounds (there is only an assertion, line 56). -/
def loadKeys (cs : Nat) (enc : Row → Row) (i : Inp) : Res BinMatrix :=
  if i.act.length < i.key.data.rows.length then .error .ub
  else
    let bits := i.key.info.bits
    let keys := (List.range i.key.data.rows.length).map fun k => keyRow bits (i.key.data.rows.getD k []) (i.act.getD k 0)
    if bits + 1 ≤ cs then .ok ⟨bits + 1, divCeil (bits + 1) 8, keys⟩
    else .ok ⟨cs, divCeil cs 8, keys.map enc⟩

/-- The column of ones for the count, GroupBy.cpp 126-134: party 1 holds the ones. -/
def ones (party n : Nat) : Column :=
  ⟨⟨[], .int, 64⟩, ⟨64, 8, List.replicate n ((if party ≠ 0 then 1 else 0) :: List.replicate 7 0)⟩⟩

/-- The columns that are permuted, in the order of `mOffsets`, GroupBy.cpp 264-291: sums, count, key, encoded key. The flag
comes after them. -/
def dataCols (party : Nat) (i : Inp) : List Column := i.avg ++ [ones party i.key.data.rows.length]

/-- All columns before the flag. `ck` is the matrix of encoded keys. -/
def allCols (party : Nat) (i : Inp) (ck : BinMatrix) : List Column :=
  dataCols party i ++ [i.key, ⟨⟨[], .bin, ck.bits⟩, ck⟩]

/-- Bytes of the summed columns and the count, `mOffsets[size - 3].mStart / 8`. -/
def sumBytes (i : Inp) : Nat := (i.avg.map colBytes).sum + 8

/-- Bytes before the flag, `rowByteSize` of GroupBy.cpp 93-158. -/
def flagByte (i : Inp) (ckBits : Nat) : Nat := sumBytes i + colBytes i.key + divCeil ckBits 8

/-- `concatColumns(groupByCol, avgCol, actFlag, compressKeys, ret)`, GroupBy.cpp 93-158. -/
def concatColumns (party : Nat) (i : Inp) (ck : BinMatrix) : Res (List Row) := do
  let n := i.key.data.rows.length
  let zero := List.replicate n (List.replicate (flagByte i ck.bits + 1) (0 : Byte))
  let d ← putCols zero (starts 0 (allCols party i ck)) (allCols party i ck)
  if i.act.length < n then .error .ub
  else putCol (flagByte i ck.bits) d ((i.act.take n).map fun b => [b])

/-- The widths of the adders of `getAddCircuit`, GroupBy.cpp 489-526, with `aggTreeOffsets` of `init`, 263-280. -/
def sizes (i : Inp) : List Nat := i.avg.map (fun c => c.info.bits) ++ [64]

/-- The circuit of `getAddCircuit`: adders of the given widths side by side. -/
def addAt : List Nat → Nat → Nat → Nat
  | [], _, _ => 0
  | s :: ss, a, b => (a % 2 ^ s + b % 2 ^ s) % 2 ^ s + 2 ^ s * addAt ss (a / 2 ^ s) (b / 2 ^ s)

/-- What the leaves of the tree hold of a row: `mBitsPerEntry` bits from its start, Level.h 166-184. The columns start at
whole bytes, the adders do not. -/
def leafVal (i : Inp) (r : Row) : Nat :=
  Table.bytesNat (r.take (divCeil (sizes i).sum 8)) % 2 ^ (sizes i).sum

/-- The first `k` bytes of a number. -/
def natBytes (k v : Nat) : Row := (List.range k).map fun i => BitVec.ofNat 8 (v / 256 ^ i)

/-- A row of the tree's output, AggTree.cpp 893-927: the bytes of the result; bytes of the row beyond them are not written
(`junk`). -/
def sumRow (i : Inp) (v : Nat) (junk : Nat → Byte) : Row :=
  natBytes (divCeil (sizes i).sum 8) v ++ (List.range (sumBytes i - divCeil (sizes i).sum 8)).map junk

/-- The randomness of the protocol. -/
structure Rnd where
  first : Radix.RoundRnd
  rest : List (ComposedPerm × ComposedPerm × Radix.RoundRnd)
  /-- Party 0's output of the tree. -/
  agg : Nat → Row
  /-- Party 0's share of the new flags. -/
  flag : Nat → Bool
  /-- Memory that the tree does not write. -/
  junk : Nat → Nat → Byte

/-- One party's rows before the second permutation, GroupBy.cpp 164-194: sums, key, flag. `t` are the sorted rows. -/
def back (i : Inp) (a t : List Row) (f : Nat → Bool) : Res (List Row) :=
  mapRes (fun j => do
    let g ← slice (sumBytes i) (colBytes i.key) (t.getD j [])
    .ok (a.getD j [] ++ g ++ [if f j then 1 else 0])) (List.range a.length)

/-- The columns of sums and the count, GroupBy.cpp 467-475 with Table.cpp 570-582: the widths are those of whole bytes. -/
def outCols (data : List Row) : Nat → List Column → Res (List Column)
  | _, [] => .ok []
  | off, c :: r => do
    let rows ← mapRes (slice off (colBytes c)) data
    let t ← outCols data (off + colBytes c) r
    .ok (⟨⟨c.info.name, c.info.type, colBytes c * 8⟩, ⟨colBytes c * 8, colBytes c, rows⟩⟩ :: t)

/-- The column `Count`, Table.cpp 579-583. -/
def countCol : Column := ⟨⟨[67, 111, 117, 110, 116], .int, 64⟩, ⟨64, 8, []⟩⟩

/-- `getOutput`, GroupBy.cpp 450-487, with `populateOutTable`, Table.cpp 552-585. -/
def getOutput (i : Inp) (data : List Row) : Res Table := do
  let key ← mapRes (slice (sumBytes i) (colBytes i.key)) data
  let cols ← outCols data 0 (i.avg ++ [countCol])
  let act ← mapRes (fun r => rd r (sumBytes i + colBytes i.key)) data
  .ok ⟨act, ⟨⟨i.key.info.name, i.key.info.type, colBytes i.key * 8⟩, ⟨colBytes i.key * 8, colBytes i.key, key⟩⟩ :: cols⟩

/-- The part of `groupBy` after the sort, GroupBy.cpp 372-440: `s0`, `s1` are the shares of the sorting permutation, `p0`,
`p1` the generated shared permutation. -/
def groupSorted (i0 i1 : Inp) (k0 k1 : BinMatrix) (s0 s1 : List (BitVec 32)) (p0 p1 : ComposedPerm) (r : Rnd) :
    Res (Table × Table) := do
  let d0 ← concatColumns 0 i0 k0
  let d1 ← concatColumns 1 i1 k1
  let fb := flagByte i0 k0.bits
  let (p0, p1) ← ComposedPerm.derandomizeBoth p0 p1 s0 s1
  let (p0, p1, t0, t1) ← ComposedPerm.applyBoth p0 p1 .inverse ⟨fb + 1, d0⟩ ⟨fb + 1, d1⟩
  let rows := List.zipWith xorRow t0.rows t1.rows
  let cb ← controlBits (sumBytes i0 + colBytes i0.key) k0.bits rows
  let sums ← Agg.aggTree .suf (addAt (sizes i0)) 0 (rows.map (leafVal i0)) cb
  let sumRows := (List.range sums.length).map fun j => sumRow i0 (sums.getD j 0) (r.junk j)
  let (a0, a1) := shareRows (sumBytes i0) r.agg sumRows
  let new := (List.range rows.length).map fun j =>
    Gmw.table .naAnd (cb.getD j false) (((rows.getD j []).getD fb 0).getLsbD 0)
  let u0 ← back i0 a0 t0.rows r.flag
  let u1 ← back i1 a1 t1.rows fun j => r.flag j ^^ new.getD j false
  let w := sumBytes i0 + colBytes i0.key + 1
  let (_, _, v0, v1) ← ComposedPerm.applyBoth p0 p1 .regular ⟨w, u0⟩ ⟨w, u1⟩
  let o0 ← getOutput i0 v0.rows
  let o1 ← getOutput i1 v1.rows
  .ok (o0, o1)

/-- `groupBy`, GroupBy.cpp 332-447, after `init` with digits of `L` bits for the sort, without the removal of inactive
rows. -/
def groupBy (L cs : Nat) (enc : Row → Row) (i0 i1 : Inp) (p0 p1 : ComposedPerm) (r : Rnd) : Res (Table × Table) := do
  let k0 ← loadKeys cs enc i0
  let k1 ← loadKeys cs enc i1
  let (s0, s1) ← Radix.genPerm k0.rows.length k0.bits L k0 k1 r.first r.rest
  groupSorted i0 i1 k0 k1 s0 s1 p0 p1 r

/-- The last step of `groupBy`, GroupBy.cpp 443-446: the inactive rows are removed in place. `e0`, `e1` is the permutation
that `Extract` generates. -/
def groupByActive (L cs : Nat) (enc : Row → Row) (i0 i1 : Inp) (p0 p1 e0 e1 : ComposedPerm) (r : Rnd) :
    Res (Table × Table) := do
  let (t0, t1) ← groupBy L cs enc i0 i1 p0 p1 r
  Extract.applyTable i0.key.data.rows.length e0 e1 t0 t1 t0 t1

/-- `dataBitsPerEntry` of `init`, GroupBy.cpp 259-291. -/
def dataBits (i : Inp) (ckBits : Nat) : Nat := 8 * (flagByte i ckBits + 1)

/-- The bytes per row requested in `init` for the sorting permutation, GroupBy.cpp 299-303, without printing. -/
def permBytes (d ckBits : Nat) (remove : Bool) : Nat :=
  (divCeil d 8 + 4) + (if remove then 0 else divCeil (d - ckBits) 8)

end GroupBy
end SecJoin
