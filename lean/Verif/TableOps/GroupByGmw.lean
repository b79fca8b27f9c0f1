import Verif.TableOps.GroupBy
import Verif.Join.OmGmw
/-!
# Group-by with the evaluation of its circuits

`GroupBy.lean` takes the sort, the control bits, the sums and the new flags from the functionality of GMW. Here both parties set the inputs,
run the protocol on them and read the outputs; nothing is reconstructed in between.
-/
namespace SecJoin
namespace GroupBy
open OmJoin (colBytes slice rowVec vecRow ctrlGmw flagGmw GmwEnv)

/-- The circuit of `getAddCircuit` on values of the tree, GroupBy.cpp 489-526. -/
def addVec (ss : List Nat) (a b : BitVec ss.sum) : BitVec ss.sum := BitVec.ofNat _ (addAt ss a.toNat b.toNat)

/-- `mAggTree.apply` on the data of both parties, GroupBy.cpp 413-414 with AggTree.cpp 148-175 and 893-927: the bytes of the result; bytes of the
row beyond them are not written (`junk`). A byte of the control bits is a bit if it is not zero (`BitIterator`). -/
def sumGmw (T : Agg.TreeEnv) (i : Inp) (junk0 junk1 : Nat → Nat → Byte) (d0 d1 : List Row) (c0 c1 : List Byte) : Res (List Row × List Row) := do
  let w := (sizes i).sum
  let (o0, o1) ← Agg.aggTreeGmw T w .suf (d0.map (rowVec w)) (d1.map (rowVec w)) (c0.map (· != 0)) (c1.map (· != 0))
  let row := fun (junk : Nat → Nat → Byte) (o : List (BitVec w)) (j : Nat) =>
    vecRow w (o.getD j 0) ++ (List.range (sumBytes i - divCeil w 8)).map (junk j)
  .ok ((List.range o0.length).map (row junk0 o0), (List.range o1.length).map (row junk1 o1))

/-- The flag of a sorted row as `extractKeyInfo` copies it, GroupBy.cpp 31-32: a single bit of a zeroed byte. -/
def flagBit (fb : Nat) (r : Row) : Res Byte := do
  let b ← rd r fb
  .ok (if b.getLsbD 0 then 1 else 0)

/-- One party's rows before the second permutation, GroupBy.cpp 164-194, see `back`. -/
def backGmw (i : Inp) (a t : List Row) (f : List Byte) : Res (List Row) :=
  mapRes (fun j => do
    let g ← slice (sumBytes i) (colBytes i.key) (t.getD j [])
    .ok (a.getD j [] ++ g ++ [f.getD j 0])) (List.range a.length)

/-- The part of `groupBy` after the sort, GroupBy.cpp 372-440, see `groupSorted`. -/
def groupSortedGmw (i0 i1 : Inp) (k0 k1 : BinMatrix) (s0 s1 : List (BitVec 32)) (p0 p1 : ComposedPerm) (G : GmwEnv) (junk0 junk1 : Nat → Nat → Byte) :
    Res (Table × Table) := do
  let d0 ← concatColumns 0 i0 k0
  let d1 ← concatColumns 1 i1 k1
  let fb := flagByte i0 k0.bits
  let (p0, p1) ← ComposedPerm.derandomizeBoth p0 p1 s0 s1
  let (p0, p1, t0, t1) ← ComposedPerm.applyBoth p0 p1 .inverse ⟨fb + 1, d0⟩ ⟨fb + 1, d1⟩
  let x0 ← mapRes (slice (sumBytes i0 + colBytes i0.key) (divCeil k0.bits 8)) t0.rows
  let x1 ← mapRes (slice (sumBytes i1 + colBytes i1.key) (divCeil k1.bits 8)) t1.rows
  let f0 ← mapRes (flagBit fb) t0.rows
  let f1 ← mapRes (flagBit fb) t1.rows
  let (c0, c1) ← ctrlGmw G.ctrlE G.ctrl k0.rows.length k0.bits x0 x1
  let (a0, a1) ← sumGmw G.tree i0 junk0 junk1 t0.rows t1.rows c0 c1
  let (g0, g1) ← flagGmw G.flagE G.flag k0.rows.length c0 c1 f0 f1
  let u0 ← backGmw i0 a0 t0.rows g0
  let u1 ← backGmw i1 a1 t1.rows g1
  let w := sumBytes i0 + colBytes i0.key + 1
  let (_, _, v0, v1) ← ComposedPerm.applyBoth p0 p1 .regular ⟨w, u0⟩ ⟨w, u1⟩
  let o0 ← getOutput i0 v0.rows
  let o1 ← getOutput i1 v1.rows
  .ok (o0, o1)

/-- `groupBy`, GroupBy.cpp 332-447, see `GroupBy.groupBy`. -/
def groupByGmw (L cs : Nat) (enc : Row → Row) (i0 i1 : Inp) (p0 p1 : ComposedPerm) (G : GmwEnv) (junk0 junk1 : Nat → Nat → Byte) :
    Res (Table × Table) := do
  let k0 ← loadKeys cs enc i0
  let k1 ← loadKeys cs enc i1
  let (s0, s1) ← Radix.genPermGmw G.hot G.add k0.rows.length k0.bits L k0 k1 G.first G.rest
  groupSortedGmw i0 i1 k0 k1 s0 s1 p0 p1 G junk0 junk1

/-- The last step of `groupBy`, GroupBy.cpp 443-446, see `groupByActive`. -/
def groupByActiveGmw (L cs : Nat) (enc : Row → Row) (i0 i1 : Inp) (p0 p1 e0 e1 : ComposedPerm) (G : GmwEnv) (junk0 junk1 : Nat → Nat → Byte) :
    Res (Table × Table) := do
  let (t0, t1) ← groupByGmw L cs enc i0 i1 p0 p1 G junk0 junk1
  Extract.applyTable i0.key.data.rows.length e0 e1 t0 t1 t0 t1

end GroupBy
end SecJoin
