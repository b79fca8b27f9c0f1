import Verif.Join.OmModel
import Verif.Sort.RadixGmw
import Verif.AggTree.Share
import Verif.TableOps.WhereGmw
/-!
# The one-to-many join with the evaluation of its circuits

`OmModel.lean` takes the sort, the control bits, the duplication and the new flags from the functionality of GMW. Here both parties set the
inputs, run the protocol on them and read the outputs; nothing is reconstructed in between.
-/
namespace SecJoin
namespace OmJoin
open Gmw.Wires (Env Cir setRun getOutputBin)
open WhereT (toByte)

/-- The first `w` bits of a row, as a leaf of the tree gets them (Level.h 166-184). -/
def rowVec (w : Nat) (r : Row) : BitVec w := Agg.mkVec w fun j => keyBit 0 r j

/-- The bytes of a value as `getOutput` writes them to a row (AggTree.cpp 893-900). -/
def vecRow (w : Nat) (v : BitVec w) : Row := (List.range (divCeil w 8)).map fun i => toByte fun j => v.getLsbD (8 * i + j)

/-- `getControlBits`, OmJoin.cpp 124-142 and GroupBy.cpp 538-553, of both parties on their shares of the keys: the keys after a row of zeros;
all rows but the last and all rows but the first are the inputs; the first bit is cleared. `n` are the instances of `init`. Without rows
`subMatrix` refuses. -/
def ctrlGmw (E : Env) (c : Cir) (n bits : Nat) (k0 k1 : List Row) : Res (List Byte × List Byte) := do
  throwIf (k0.length == 0)
  throwIf (k1.length == 0)
  let kb := divCeil bits 8
  let s0 := List.replicate kb (0 : Byte) :: k0
  let s1 := List.replicate kb (0 : Byte) :: k1
  let (t0, t1) ← setRun E n c [.setInput 0 (s0.take k0.length) kb 1, .setInput 1 ((s0.drop 1).take k0.length) kb 1]
    [.setInput 0 (s1.take k1.length) kb 1, .setInput 1 ((s1.drop 1).take k1.length) kb 1]
  let f0 ← getOutputBin E.junk0 t0 0 k0.length 1
  let f1 ← getOutputBin E.junk1 t1 0 k1.length 1
  .ok (0 :: ((List.range k0.length).map fun i => toByte (f0 i)).drop 1, 0 :: ((List.range k1.length).map fun i => toByte (f1 i)).drop 1)

/-- `updateActiveFlag` up to the result of the circuit, OmJoin.cpp 374-388 and GroupBy.cpp 206-212, of both parties: input 0 are the control bits,
input 1 the bytes with the flags. -/
def flagGmw (E : Env) (c : Cir) (n : Nat) (c0 c1 f0 f1 : List Byte) : Res (List Byte × List Byte) := do
  let (t0, t1) ← setRun E n c [.setInput 0 (c0.map fun b => [b]) 1 1, .setInput 1 (f0.map fun b => [b]) 1 1]
    [.setInput 0 (c1.map fun b => [b]) 1 1, .setInput 1 (f1.map fun b => [b]) 1 1]
  let g0 ← getOutputBin E.junk0 t0 0 f0.length 1
  let g1 ← getOutputBin E.junk1 t1 0 f1.length 1
  .ok ((List.range f0.length).map fun i => toByte (g0 i), (List.range f1.length).map fun i => toByte (g1 i))

/-- `mAggTree.apply`, AggTree.cpp 148-175, on the rows of both parties for values of `w` bits; a byte of the control bits is a bit if it is not
zero (`BitIterator`). The result are the bytes that it writes. -/
def treeGmw (T : Agg.TreeEnv) (w : Nat) (t : Agg.AggType) (d0 d1 : List Row) (c0 c1 : List Byte) : Res (List Row × List Row) := do
  let (o0, o1) ← Agg.aggTreeGmw T w t (d0.map (rowVec w)) (d1.map (rowVec w)) (c0.map (· != 0)) (c1.map (· != 0))
  .ok (o0.map (vecRow w), o1.map (vecRow w))

/-- The end of `updateActiveFlag`, OmJoin.cpp 390-394. -/
def putFlag (off : Nat) (data : List Row) (f : List Byte) : List Row :=
  (List.range data.length).map fun i => (data.getD i []).take off ++ [f.getD i 0]

/-- What the join takes from elsewhere: the circuits of `init` (OmJoin.cpp 450-467) as levelled by the library, and memory, OLEs and OTs for
their evaluations. -/
structure GmwEnv where
  hot : Cir
  add : Cir
  first : Radix.RoundEnv
  rest : List (ComposedPerm × ComposedPerm × Radix.RoundEnv)
  ctrl : Cir
  ctrlE : Env
  tree : Agg.TreeEnv
  flag : Cir
  flagE : Env

/-- The part of `join` after the sort, OmJoin.cpp 529-603, see `joinSorted`. The rows keep their key in the tree: `reshape` (563-565) changes
only the number of bits that `updateActiveFlag` uses for its output, and the tree was made for whole rows (464). -/
def joinSortedGmw (q0 q1 : Query) (keys0 keys1 : BinMatrix) (s0 s1 : List (BitVec 32)) (p0 p1 : ComposedPerm) (G : GmwEnv) :
    Res (Table × Table) := do
  let d0 ← concatColumns q0 keys0 0
  let d1 ← concatColumns q1 keys1 1
  let w := dataBytes q0.select q0.leftKey.info.bits
  let fb := flagByte q0.select
  validateCorNet p0.snd p1.rcv
  validateCorNet p1.snd p0.rcv
  let (p0, p1) ← ComposedPerm.derandomizeBoth p0 p1 s0 s1
  let (p0, p1, t0, t1) ← ComposedPerm.applyBoth p0 p1 .inverse ⟨w, d0⟩ ⟨w, d1⟩
  let k0 ← mapRes (slice (fb + 1) (divCeil keys0.bits 8)) t0.rows
  let k1 ← mapRes (slice (fb + 1) (divCeil keys0.bits 8)) t1.rows
  let (c0, c1) ← ctrlGmw G.ctrlE G.ctrl keys0.rows.length keys0.bits k0 k1
  let (a0, a1) ← treeGmw G.tree (8 * w) .pre t0.rows t1.rows c0 c1
  let f0 ← mapRes (fun r => rd r fb) a0
  let f1 ← mapRes (fun r => rd r fb) a1
  let (g0, g1) ← flagGmw G.flagE G.flag keys0.rows.length c0 c1 f0 f1
  let (_, _, v0, v1) ← ComposedPerm.applyBoth p0 p1 .regular ⟨fb + 1, putFlag fb a0 g0⟩ ⟨fb + 1, putFlag fb a1 g1⟩
  let o0 ← getOutput q0 v0.rows
  let o1 ← getOutput q1 v1.rows
  .ok (o0, o1)

/-- `join`, OmJoin.cpp 485-611, see `OmJoin.join`. -/
def joinGmw (L cs : Nat) (enc : Row → Row) (q0 q1 : Query) (p0 p1 : ComposedPerm) (G : GmwEnv) : Res (Table × Table) := do
  let keys0 ← loadKeys cs enc q0.leftKey q0.rightKey
  let keys1 ← loadKeys cs enc q1.leftKey q1.rightKey
  let (s0, s1) ← Radix.genPermGmw G.hot G.add keys0.rows.length keys0.bits L keys0 keys1 G.first G.rest
  joinSortedGmw q0 q1 keys0 keys1 s0 s1 p0 p1 G

end OmJoin
end SecJoin
