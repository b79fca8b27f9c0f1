import Verif.Sort.Radix
/-!
# Model of the checks that a sort makes in debug mode: Sort/RadixSort.cpp with `mDebug`

In debug mode the parties send each other their shares, each adds (or XORs) what it received to its own, and compares the
values with what they should be. Both see the same sums and so both go the same way: a check is one function of the
revealed values. What is printed is left out. The other overload of `checkGenValMasks` (RadixSort.cpp 283-347) is never
called.
-/
namespace SecJoin
namespace Radix

/-! ## The checks of a round -/

/-- XOR of the two shares. -/
def xorBytes (a b : List Byte) : List Byte := List.zipWith (· ^^^ ·) a b

/-- XOR of the two shares. -/
def xorWords (a b : List (BitVec 32)) : List (BitVec 32) := List.zipWith (· ^^^ ·) a b

/-- Sum of the two shares of a matrix. -/
def addRows (a b : List (List (BitVec 32))) : List (List (BitVec 32)) := List.zipWith addRow a b

/-- The inner loop of `checkGenValMasks`, RadixSort.cpp 382-393, from column `i` on. -/
def checkMaskRow (kj : Nat) : Nat → List (BitVec 32) → Res Unit
  | _, [] => .ok ()
  | i, x :: r => do
    if kj = i then throwIf (x != 1) else throwIf (x != 0)
    checkMaskRow kj (i + 1) r

/-- The loop over the rows of `checkGenValMasks`, RadixSort.cpp 378-394. -/
def checkMaskRows : List Byte → List (List (BitVec 32)) → Res Unit
  | k :: ks, f :: fs => do
    checkMaskRow k.toNat 0 f
    checkMaskRows ks fs
  | _, _ => .ok ()

/-- `checkGenValMasks` for words, RadixSort.cpp 349-395, on the revealed digits and one-hot rows. -/
def checkMasks (L : Nat) (k : List Byte) (f : List (List (BitVec 32))) : Res Unit := do
  throwIf (f.length != k.length)
  throwIf (f.any fun r => r.length != 2 ^ L)
  checkMaskRows k f

/-- The weights of the rows, RadixSort.cpp 661-670. The sum `w` has 64 bits, so it does not wrap. -/
def checkWeights : List (List (BitVec 32)) → Res Unit
  | [] => .ok ()
  | f :: fs => do
    throwIf ((f.map BitVec.toNat).sum != 1)
    checkWeights fs

/-- Column `j` of `s` recomputed from column `j` of `f` and compared with what was revealed, RadixSort.cpp 677-683 and
686-687; the result is `sum` after the column. The code recomputes all of `s` before it compares. -/
def checkColumn (j : Nat) : List (List (BitVec 32)) → List (List (BitVec 32)) → BitVec 32 → Res (BitVec 32)
  | f :: fs, s :: ss, sum => do
    let sum := sum + f.getD j 0
    throwIf (s.getD j 0 != sum)
    checkColumn j fs ss sum
  | _, _, sum => .ok sum

/-- The columns from `j` on, RadixSort.cpp 673-684; the count is the number of columns left. -/
def checkColumns (f s : List (List (BitVec 32))) : Nat → Nat → BitVec 32 → Res Unit
  | 0, _, _ => .ok ()
  | c + 1, j, sum => do
    let sum ← checkColumn j f s sum
    checkColumns f s c (j + 1) sum

/-- `checkAggregateSum`, RadixSort.cpp 628-721, on the revealed one-hot rows and running sums. -/
def checkAggregate (L2 : Nat) (f s : List (List (BitVec 32))) : Res Unit := do
  checkWeights f
  checkColumns f s L2 0 (-1)

/-- One row of the expected inner products, RadixSort.cpp 50-52: `k` is the position of the bit iterator. -/
def innerExp (f : List Byte) : Nat → List (BitVec 32) → Res (BitVec 32)
  | _, [] => .ok 0
  | k, s :: ss => do
    let b ← flatBit f k
    let r ← innerExp f (k + 1) ss
    .ok (word b * s + r)

/-- `checkHadamardSum`, RadixSort.cpp 8-65, on the revealed bits `f`, sums `s` and products `d`. The code computes all of
`exp` before it compares. -/
def checkInner (f : List Byte) (cols : Nat) : Nat → List (List (BitVec 32)) → List (BitVec 32) → Res Unit
  | i, s :: ss, d :: ds => do
    let e ← innerExp f (i * cols) s
    throwIf (e != d)
    checkInner f cols (i + 1) ss ds
  | _, _, _ => .ok ()

/-- `std::stable_sort` of the indices by byte, RadixSort.cpp 813-817 and 913-917. -/
def byteSort (k : List Byte) : List Nat :=
  (List.range k.length).mergeSort fun a b => !decide ((k.getD b 0).toNat < (k.getD a 0).toNat)

/-- The lambda `genBitPerm`, RadixSort.cpp 811-819 and 911-919. -/
def bytePerm (k : List Byte) : Res Perm := (Perm.mk (byteSort k)).inverse

/-- The check at the end of `genBitPerm`, RadixSort.cpp 790-842, on the revealed digits and positions. -/
def checkPos (k : List Byte) (p : List (BitVec 32)) : Res Unit := do
  let q ← bytePerm k
  throwIf (q.pi != p.map BitVec.toNat)

/-- `hadamardSum` with its two checks, RadixSort.cpp 230-280, both parties. -/
def hadamardSumD (n L2 : Nat) (f0 f1 : List Byte) (s0 s1 : List (List (BitVec 32))) (otA otB : List (List Ot))
    (mask : Nat → BitVec 32) : Res (List (BitVec 32) × List (BitVec 32)) := do
  let a ← hadLoop f0 f1 s1.flatten n L2 otA 0
  let b ← hadLoop f1 f0 s0.flatten n L2 otB 0
  let sh0 := List.zipWith (fun (x y : BitVec 32 × BitVec 32) => y.2 + x.1) a b
  let sh1 := List.zipWith (fun (x y : BitVec 32 × BitVec 32) => x.2 + y.1) a b
  checkInner (xorBytes f0 f1) L2 0 (addRows s0 s1) (addRow sh0 sh1)
  let w := sumBits sh0.length
  let out := List.zipWith (fun x1 x0 => lowBits w (lowBits w x1 + lowBits w x0)) sh1 sh0
  let d0 := (List.range out.length).map fun i => lowBits w (mask i)
  let d1 := (List.range out.length).map fun i => lowBits w (mask i) ^^^ out.getD i 0
  checkInner (xorBytes f0 f1) L2 0 (addRows s0 s1) (xorWords d0 d1)
  .ok (d0, d1)

/-- `genBitPerm` in debug mode, RadixSort.cpp 725-844, with `genValMasks2` 401-550. -/
def genBitPermD (n L : Nat) (k0 k1 : List Byte) (r : RoundRnd) : Res (List (BitVec 32) × List (BitVec 32)) := do
  throwIf (decide (L > 8))
  throwIf (k0.length != n || k1.length != n)
  let (b0, b1) := oneHotShares L r.oh k0 k1
  let (v0, v1) ← bitInjection 1 (n * 2 ^ L) 32 ⟨b0.length, [b0]⟩ ⟨b1.length, [b1]⟩ r.inj
  let f0 := rowsOf (2 ^ L) v0 n
  let f1 := rowsOf (2 ^ L) v1 n
  checkMasks L (xorBytes k0 k1) (addRows f0 f1)
  let s0 := aggregateSum f0 (2 ^ L) 0
  let s1 := aggregateSum f1 (2 ^ L) 1
  checkAggregate (2 ^ L) (addRows f0 f1) (addRows s0 s1)
  let (d0, d1) ← hadamardSumD n (2 ^ L) b0 b1 s0 s1 r.otA r.otB r.mask
  checkPos (xorBytes k0 k1) (xorWords d0 d1)
  .ok (d0, d1)

/-! ## The checks of a sort -/

/-- One row of the check in `extract`, RadixSort.cpp 882-887: `a` is the position of bit `begin` of the row, `b` the byte
of the result; the count is the number of bits left, `j` the next one. -/
def checkBits (m : List Byte) (a : Nat) (b : Byte) : Nat → Nat → Res Unit
  | 0, _ => .ok ()
  | c + 1, j => do
    let x ← flatBit m (a + j)
    throwIf (x != b.getLsbD j)
    checkBits m a b c (j + 1)

/-- The check in `extract`, RadixSort.cpp 878-889: all rows but the last. -/
def checkExtract (m : List Byte) (cols begin size : Nat) : Nat → List Byte → Res Unit
  | i, b :: c :: r => do
    checkBits m (i * cols * 8 + begin) b size 0
    checkExtract m cols begin size (i + 1) (c :: r)
  | _, _ => .ok ()

/-- `extract` in debug mode, RadixSort.cpp 849-892. -/
def extractD (begin size : Nat) (k : Mat Row) : Res (List Byte) := do
  let v ← extract begin size k
  checkExtract k.rows.flatten k.cols begin (if begin ≤ k.cols * 8 then min size (k.cols * 8 - begin) else size) 0 v
  .ok v

/-- The loop over neighbouring rows, RadixSort.cpp 942-956 and 985-994. `gt len` is the library's comparison of the
`oc::BitVector`s made from the first `len` bits of the rows. -/
def checkOrder (gt : Nat → Row → Row → Bool) (len : Nat) : List Row → Res Unit
  | a :: b :: r => do
    throwIf (gt len a b)
    checkOrder gt len (b :: r)
  | _ => .ok ()

/-- The rounds after the first of `debugGenPerm`, RadixSort.cpp 958-995: the count is the number of rounds left, `dst` the
permutation so far. The old contents of the targets of `apply`, all overwritten, are taken to be those of the source;
so is their width (the code resizes them to the bits of the keys). -/
def debugLoop (gt : Nat → Row → Row → Bool) (bits L : Nat) (kk : Mat Row) : Nat → Nat → Perm → Res (List Perm)
  | 0, _, _ => .ok []
  | left + 1, kIdx, dst => do
    let sk ← extractD kIdx L kk
    let ssk ← dst.apply ⟨1, sk⟩ ⟨1, sk⟩ .inverse
    let p ← bytePerm ssk.rows
    let dst ← dst.compose p
    let srt ← dst.apply kk kk .inverse
    checkOrder gt (min (kIdx + L) bits) srt.rows
    let r ← debugLoop gt bits L kk left (kIdx + L) dst
    .ok (p :: r)

/-- `debugGenPerm`, RadixSort.cpp 895-1001, on the revealed keys: the permutations of the rounds. -/
def debugGenPerm (gt : Nat → Row → Row → Bool) (bits L : Nat) (kk : Mat Row) : Res (List Perm) := do
  let sk ← extractD 0 L kk
  let p ← bytePerm sk
  let srt ← p.apply kk kk .inverse
  checkOrder gt (min L bits) srt.rows
  let r ← debugLoop gt bits L kk (divCeil bits L - 1) L p
  .ok (p :: r)

/-- The rounds after the first in debug mode, RadixSort.cpp 1162-1211. -/
def genPermLoopD (n L : Nat) (k0 k1 : Mat Row) : Nat → List (ComposedPerm × ComposedPerm × RoundRnd) → Nat →
    List (BitVec 32) → List (BitVec 32) → Res (List (BitVec 32) × List (BitVec 32))
  | 0, _, _, d0, d1 => .ok (d0, d1)
  | _ + 1, [], _, _, _ => .error .ub
  | left + 1, (c0, c1, r) :: rs, kIdx, d0, d1 => do
    let sk0 ← extractD kIdx L k0
    let sk1 ← extractD kIdx L k1
    let (c0, c1) ← ComposedPerm.derandomizeBoth c0 c1 d0 d1
    let (c0, c1, o0, o1) ← ComposedPerm.applyBoth c0 c1 .inverse (byteCol sk0) (byteCol sk1)
    let ssk0 ← colBytes o0
    let ssk1 ← colBytes o1
    let (p0, p1) ← genBitPermD n L ssk0 ssk1 r
    let (_, _, d0, d1) ← ComposedPerm.composeBoth c0 c1 p0 p1
    genPermLoopD n L k0 k1 left rs (kIdx + L) d0 d1

/-- `genPerm` in debug mode, RadixSort.cpp 1095-1229. The permutations that `debugGenPerm` returns are not used: the
comparison with them (lines 1152-1168) is commented out. -/
def genPermD (gt : Nat → Row → Row → Bool) (n bits L : Nat) (k0 k1 : BinMatrix) (first : RoundRnd)
    (rest : List (ComposedPerm × ComposedPerm × RoundRnd)) : Res (List (BitVec 32) × List (BitVec 32)) := do
  checkKey n bits k0
  checkKey n bits k1
  let _ ← debugGenPerm gt bits L ⟨k0.cols, List.zipWith xorRow k0.rows k1.rows⟩
  let sk0 ← extractD 0 L k0.mat
  let sk1 ← extractD 0 L k1.mat
  if divCeil bits L = 0 then .error .ub
  else do
    let (d0, d1) ← genBitPermD n L sk0 sk1 first
    genPermLoopD n L k0.mat k1.mat (divCeil bits L - 1) rest L d0 d1

end Radix
end SecJoin
