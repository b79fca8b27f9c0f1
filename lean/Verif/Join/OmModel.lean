import Mathlib.Data.Nat.Log
import Verif.Sort.Radix
import Verif.Table.Model
import Verif.AggTree.Secure
/-!
# The one-to-many join

Model of `/repo/secure-join/Join/OmJoin.{h,cpp}`. Both parties run in lockstep. What GMW computes (control bits,
duplication tree, active flag) is its functionality: party 0 gets an arbitrary mask, party 1 the mask XOR the result
(C24); the trees and circuits themselves are modelled. The sort, the permutation correlations and the duplication tree are
the models of their own. Printing is left out. The optional removal of inactive rows is `Extract`.
-/
namespace SecJoin
namespace OmJoin

open Gmw (Op evalOps)

/-! ## Control bits -/

/-- The loop over the levels of `getControlBitsCircuit`, OmJoin.cpp 88-109, from level `i` on; `temp` are the wires of
the current level and `next` is the first wire not in use. -/
def ctrlLevels (bits : Nat) : Nat → Nat → List Nat → Nat → List Op
  | 0, _, _, _ => []
  | left + 1, i, temp, next =>
    let size := bits / 2 / 2 ^ i
    let temp2 := if size = 1 then [2 * bits] else List.range' next size
    let next' := if size = 1 then next else next + size
    ((List.range size).map fun j => .gate ⟨temp.getD (2 * j) 0, temp.getD (2 * j + 1) 0, temp2.getD j 0, .and⟩) ++
      ctrlLevels bits left (i + 1) temp2 next'

/-- `getControlBitsCircuit(bitCount)`, OmJoin.cpp 63-111: wires `0 .. bits-1` and `bits .. 2*bits-1` are the inputs, wire
`2*bits` is the output. -/
def ctrlOps (bits : Nat) : List Op :=
  let temp := if bits = 1 then [2 * bits] else List.range' (2 * bits + 1) bits
  let next := if bits = 1 then 2 * bits + 1 else 3 * bits + 1
  ((List.range bits).map fun i => .gate ⟨i, bits + i, temp.getD i 0, .nxor⟩) ++ ctrlLevels bits (Nat.clog 2 bits) 0 temp next

/-- The output of the circuit on two keys. All other wires start with zero. -/
def ctrlBit (bits : Nat) (a b : Nat → Bool) : Bool :=
  evalOps (ctrlOps bits) (fun w => if w < bits then a w else if w < 2 * bits then b (w - bits) else false) (2 * bits)

/-- The bits of the key stored at byte `off` of a row. -/
def keyBit (off : Nat) (r : Row) (t : Nat) : Bool := (r.getD (off + t / 8) 0).getLsbD (t % 8)

/-- `getControlBits`, OmJoin.cpp 113-143, on the reconstructed rows: row `i` is compared with row `i - 1` and the first
row's bit is cleared. Without rows `sKeys.subMatrix(1, 0)` of the single row is refused, Matrix.h 150-157 (in GroupBy.cpp 542
`keys.subMatrix(0, 0)` is). -/
def controlBits (off bits : Nat) (rows : List Row) : Res (List Bool) :=
  if rows.length = 0 then .error .throw
  else .ok ((List.range rows.length).map fun i =>
    if i = 0 then false else ctrlBit bits (keyBit off (rows.getD (i - 1) [])) (keyBit off (rows.getD i [])))

/-! ## Packing -/

/-- A query as one party sees it, JoinQuery.h 24-47. A selected column is marked as coming from the table of the left
key or not. -/
structure Query where
  leftKey : Column
  rightKey : Column
  select : List (Bool × Column)

/-- `loadKeys`, OmJoin.cpp 12-59. `cs` is `mStatSecParam + log2(rows0) + log2(rows1)` truncated; comparing the whole
number `bits` with it is the same. For an empty table it is minus infinity, and its conversion to a `u64` (line 41, before that
line 419 in `init`) is undefined. Longer keys are encoded by a fixed random linear code `enc`, whose library is outside of
the repository. -/
def loadKeys (cs : Nat) (enc : Row → Row) (l r : Column) : Res BinMatrix := do
  throwIf (l.info.bits != r.info.bits)
  if l.data.rows.length = 0 ∨ r.data.rows.length = 0 then .error .ub
  else if l.info.bits ≤ cs then .ok ⟨l.info.bits, divCeil l.info.bits 8, l.data.rows ++ r.data.rows⟩
  else .ok ⟨cs, divCeil cs 8, l.data.rows.map enc ++ r.data.rows.map enc⟩

/-- The columns of the left table among the selected ones, OmJoin.cpp 186-195. -/
def leftCols (s : List (Bool × Column)) : List Column := (s.filter (·.1)).map (·.2)

/-- Bytes of a column, `divCeil(getBitCount(), 8)`. -/
def colBytes (c : Column) : Nat := divCeil c.info.bits 8

/-- `mOffsets[i].mStart / 8` of the left columns, and after them that of the flag, OmJoin.cpp 424-443. -/
def starts (off : Nat) : List Column → List Nat
  | [] => [off]
  | c :: cs => off :: starts (off + colBytes c) cs

/-- The byte of the flag. -/
def flagByte (s : List (Bool × Column)) : Nat := ((leftCols s).map colBytes).sum

/-- `divCeil(mDataBitsPerEntry, 8)`, OmJoin.cpp 424-448: left columns, flag and the whole bytes of the key column. -/
def dataBytes (s : List (Bool × Column)) (keyBits : Nat) : Nat := flagByte s + 1 + divCeil keyBits 8

/-- Copying `src` to byte `off` of a row. Writing past the row is counted as undefined (it would reach the next row). -/
def putBytes (off : Nat) (dst src : Row) : Res Row :=
  if off + src.length ≤ dst.length then .ok (dst.take off ++ src ++ dst.drop (off + src.length)) else .error .ub

/-- One column of `concatColumns(dst, cols, offsets)`, OmJoin.cpp 150-169: the first rows of `dst` are written. -/
def putCol (off : Nat) : List Row → List Row → Res (List Row)
  | ds, [] => .ok ds
  | [], _ :: _ => .error .ub
  | d :: ds, s :: ss => do
    let x ← putBytes off d s
    let r ← putCol off ds ss
    .ok (x :: r)

/-- `concatColumns(dst, cols, offsets)`, OmJoin.cpp 145-171, for the left columns. -/
def putCols : List Row → List Nat → List Column → Res (List Row)
  | dst, _, [] => .ok dst
  | _, [], _ :: _ => .error .ub
  | dst, o :: os, c :: cs => do
    let d ← putCol o dst c.data.rows
    putCols d os cs

/-- `concatColumns(leftJoinCol, selects, keys, ret, role)`, OmJoin.cpp 175-216. -/
def concatColumns (q : Query) (keys : BinMatrix) (role : Nat) : Res (List Row) := do
  let zero := List.replicate keys.rows.length (List.replicate (dataBytes q.select q.leftKey.info.bits) (0 : Byte))
  let d ← putCols zero (starts 0 (leftCols q.select)) (leftCols q.select)
  let d ← putCol (flagByte q.select + 1) d keys.rows
  if role ≠ 0 then putCol (flagByte q.select) d (List.replicate q.leftKey.data.rows.length [1]) else .ok d

/-- The left part of one row in `getOutput`: the bytes `[off, off + size)`. -/
def slice (off size : Nat) (r : Row) : Res Row :=
  if off + size ≤ r.length then .ok ((r.drop off).take size) else .error .ub

/-- The columns of `getOutput`, OmJoin.cpp 244-268 and 276-286: a left column is cut out of the rows of `data` after the
first `nL`, a right column is copied. -/
def outCols (data : List Row) : Nat → List (Bool × Column) → Res (List Column)
  | _, [] => .ok []
  | off, (true, c) :: r => do
    let rows ← mapRes (slice off (colBytes c)) data
    let t ← outCols data (off + colBytes c) r
    .ok (⟨c.info, ⟨c.info.bits, colBytes c, rows⟩⟩ :: t)
  | off, (false, c) :: r => do
    let t ← outCols data off r
    .ok (c :: t)

/-- `getOutput`, OmJoin.cpp 224-287. -/
def getOutput (q : Query) (data : List Row) : Res Table := do
  let right := data.drop q.leftKey.data.rows.length
  let cols ← outCols right 0 q.select
  let act ← mapRes (fun r => rd r (flagByte q.select)) right
  .ok ⟨act, cols⟩

/-! ## The protocol -/

/-- `updateActiveFlag`, OmJoin.cpp 360-395, of one party: the row up to the flag, then the party's share of the new
flag. -/
def setFlag (off : Nat) (data : List Row) (f : Nat → Bool) : List Row :=
  (List.range data.length).map fun i => (data.getD i []).take off ++ [if f i then 1 else 0]

/-- `getDupCircuit`, OmJoin.cpp 290-301. -/
def dup (l _ : Row) : Row := l

/-- The randomness of the join. -/
structure Rnd where
  first : Radix.RoundRnd
  rest : List (ComposedPerm × ComposedPerm × Radix.RoundRnd)
  /-- Party 0's output of the duplication tree. -/
  agg : Nat → Row
  /-- Party 0's share of the new flags. -/
  flag : Nat → Bool

/-- Shares of `v` with party 0's share `m`, of rows of `c` bytes. -/
def shareRows (c : Nat) (m : Nat → Row) (v : List Row) : List Row × List Row :=
  let a := (List.range v.length).map fun i => (List.range c).map fun j => (m i).getD j 0
  (a, List.zipWith xorRow a v)

/-- The part of `join` after the sort, OmJoin.cpp 529-603: `s0`, `s1` are the shares of the sorting permutation, `p0`,
`p1` the generated shared permutation. The check of the correlation, OmJoin.cpp 546 with ComposedPerm.h 92-107, is made in
every run: each receiver sends its masks to the other party, see `C61_join_false`. -/
def joinSorted (q0 q1 : Query) (keys0 keys1 : BinMatrix) (s0 s1 : List (BitVec 32)) (p0 p1 : ComposedPerm) (r : Rnd) :
    Res (Table × Table) := do
  let d0 ← concatColumns q0 keys0 0
  let d1 ← concatColumns q1 keys1 1
  let w := dataBytes q0.select q0.leftKey.info.bits
  let fb := flagByte q0.select
  validateCorNet p0.snd p1.rcv
  validateCorNet p1.snd p0.rcv
  let (p0, p1) ← ComposedPerm.derandomizeBoth p0 p1 s0 s1
  let (p0, p1, t0, t1) ← ComposedPerm.applyBoth p0 p1 .inverse ⟨w, d0⟩ ⟨w, d1⟩
  let rows := List.zipWith xorRow t0.rows t1.rows
  let cb ← controlBits (fb + 1) keys0.bits rows
  let dupd ← Agg.aggTree .pre dup (List.replicate w 0) rows cb
  let (a0, a1) := shareRows w r.agg dupd
  let new := (List.range rows.length).map fun i => cb.getD i false && ((dupd.getD i []).getD fb 0).getLsbD 0
  let u0 := setFlag fb a0 r.flag
  let u1 := setFlag fb a1 fun i => r.flag i ^^ new.getD i false
  let (_, _, v0, v1) ← ComposedPerm.applyBoth p0 p1 .regular ⟨fb + 1, u0⟩ ⟨fb + 1, u1⟩
  let o0 ← getOutput q0 v0.rows
  let o1 ← getOutput q1 v1.rows
  .ok (o0, o1)

/-- `join`, OmJoin.cpp 485-611, after `init` with digits of `L` bits for the sort, without the removal of inactive rows. -/
def join (L cs : Nat) (enc : Row → Row) (q0 q1 : Query) (p0 p1 : ComposedPerm) (r : Rnd) : Res (Table × Table) := do
  let keys0 ← loadKeys cs enc q0.leftKey q0.rightKey
  let keys1 ← loadKeys cs enc q1.leftKey q1.rightKey
  let (s0, s1) ← Radix.genPerm keys0.rows.length keys0.bits L keys0 keys1 r.first r.rest
  joinSorted q0 q1 keys0 keys1 s0 s1 p0 p1 r

/-! ## Correlation bytes -/

/-- The bytes per row requested in `init` for the sorting permutation, OmJoin.cpp 455-457. `d` is `mDataBitsPerEntry`,
the subtraction is of unsigned numbers. -/
def permBytes (d keySize : Nat) : Nat := divCeil d 8 + 4 + divCeil (d - 1 - keySize) 8

end OmJoin
end SecJoin
