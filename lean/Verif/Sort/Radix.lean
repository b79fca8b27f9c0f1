import Mathlib.Data.Nat.Log
import Verif.GMW.Circuit
import Verif.Sort.Plain
/-!
# Model of the secure radix sort: Sort/RadixSort.cpp and Sort/BitInjection.cpp

Both parties are run together. Random OTs and all other correlated randomness are arguments; theorems quantify over
them. A request for correlated randomness is the list of the batches that its `get` calls return. A run of the GMW
protocol is a functionality: party 0 gets the mask `rnd`, party 1 the masked output of the circuit (`C24_run` is about
the protocol itself). Asserts and the `mDebug` checks are left out.
-/
namespace SecJoin
namespace Radix

/-! ## extract -/

/-- `*(u16*)p`: two bytes, little endian. -/
def load16 (m : List Byte) (a : Nat) : Res (BitVec 16) := do
  let lo ← rd m a
  let hi ← rd m (a + 1)
  .ok (hi ++ lo)

/-- `(x >> shift) & mask` stored in a byte, RadixSort.cpp 860, 869 and 877. -/
def digitOf (shift size : Nat) (x : BitVec 16) : Byte :=
  let mask : BitVec 64 := if size % 64 ≠ 0 then (1#64 <<< size) - 1 else BitVec.allOnes 64
  ((x.setWidth 64 >>> shift) &&& mask).setWidth 8

/-- `u16 x = 0; s = min(2, k.size() - a); std::copy(s0, s0 + s, &x)`, RadixSort.cpp 874-876. The subtraction wraps when
`a` is past the end. -/
def loadLast (m : List Byte) (a : Nat) : Res (BitVec 16) :=
  if m.length < a then .error .ub
  else if m.length = a then .ok 0
  else if m.length = a + 1 then do
    let lo ← rd m a
    .ok (lo.setWidth 16)
  else load16 m a

/-- The loop over all rows but the last and the last row, RadixSort.cpp 867-877; `a` is the address `s0` and the count
is the number of rows before the last. -/
def extractLoop (m : List Byte) (step shift size : Nat) : Nat → Nat → Res (List Byte)
  | 0, a => do
    let x ← loadLast m a
    .ok [digitOf shift size x]
  | k + 1, a => do
    let x ← load16 m a
    let r ← extractLoop m step shift size k (a + step)
    .ok (digitOf shift size x :: r)

/-- `extract(begin, size, k)`, RadixSort.cpp 849-892, with the result as its column of bytes. `k.cols() * 8 - begin`
wraps to a large number when `begin` is too large. With `size = 0` the result has no columns and writing to it is out
of bounds; with no rows `n` wraps. -/
def extract (begin size : Nat) (k : Mat Row) : Res (List Byte) := do
  throwIf (decide (size > 8))
  let sz := if begin ≤ k.cols * 8 then min size (k.cols * 8 - begin) else size
  if sz = 0 ∨ k.rows.length = 0 then .error .ub
  else extractLoop k.rows.flatten k.cols (begin % 8) sz (k.rows.length - 1) (begin / 8)

/-! ## Random OTs -/

/-- One random OT, the low 32 bits of the blocks: the sender has `m0`, `m1`, the receiver `c` and the message chosen
by `c`. -/
structure Ot where
  m0 : BitVec 32
  m1 : BitVec 32
  c : Bool

/-- `mMsg[j][b]` of the sender. -/
def Ot.msg (o : Ot) (b : Bool) : BitVec 32 := if b then o.m1 else o.m0

/-- `mMsg[j]` of the receiver. -/
def Ot.got (o : Ot) : BitVec 32 := o.msg o.c

/-- A bit as a 32-bit word. -/
def word (b : Bool) : BitVec 32 := if b then 1 else 0

/-! ## BitInjection.cpp -/

/-- `*oc::BitIterator((u8*)&in(row, 0), off)` at `row = i / w`, `off = i % w`, BitInjection.cpp 119-123 and 183-186.
`diff.append` copies runs of bits; here each bit is read by itself. -/
def inBit (m : List Row) (w i : Nat) : Res Bool := do
  let row ← rd m (i / w)
  let b ← rd row (i % w / 8)
  .ok (b.getLsbD (i % w % 8))

/-- `mask = outBitCount == 32 ? -1 : ((1 << outBitCount) - 1)` with `int` arithmetic, BitInjection.cpp 96. The shift
is undefined from 32 on, the subtraction overflows for 31. -/
def injMask (outBits : Nat) : Res (BitVec 32) :=
  if outBits = 32 then .ok (BitVec.allOnes 32)
  else if outBits < 31 then .ok ((1#32 <<< outBits) - 1)
  else .error .ub

/-- `pack`, BitInjection.cpp 23-43: the low `divCeil(bitCount, 8)` bytes of each word. -/
def pack (outBits : Nat) (v : List (BitVec 32)) : List Byte :=
  if outBits = 32 then v.flatMap u32Bytes
  else v.flatMap fun w => (u32Bytes w).take (divCeil outBits 8)

/-- The loop of `unpack`, BitInjection.cpp 17-18: `*(u32*)&in[j * n]` reads four bytes whatever `n` is. -/
def unpackLoop (n : Nat) (buf : List Byte) : Nat → Nat → Res (List (BitVec 32))
  | 0, _ => .ok []
  | k + 1, a =>
    if a + 4 ≤ buf.length then do
      let w ← bytesU32 ((buf.drop a).take 4)
      let r ← unpackLoop n buf k (a + n)
      .ok (w :: r)
    else .error .ub

/-- `unpack`, BitInjection.cpp 7-22. For 32 bits it copies the bytes, which is the loop with `n = 4`. -/
def unpack (outBits : Nat) (buf : List Byte) (m : Nat) : Res (List (BitVec 32)) :=
  let n := if outBits = 32 then 4 else divCeil outBits 8
  if m * n ≠ buf.length then .error .throw else unpackLoop n buf m 0

/-- The sender's step, BitInjection.cpp 186-194: its output and the update it sends. `y` is its input bit, `d` the
received difference. -/
def injSend (mask : BitVec 32) (o : Ot) (y d : Bool) : BitVec 32 × BitVec 32 :=
  let v0 := o.msg d
  let m1 := o.msg (!d)
  let v1 := v0 + (-2 * word y + 1)
  ((-v0 + word y) &&& mask, (v1 - m1) &&& mask)

/-- The receiver's output, BitInjection.cpp 156-159; its choice bit has become its input bit `x` (line 132). -/
def injRecv (mask : BitVec 32) (o : Ot) (x : Bool) (u : BitVec 32) : BitVec 32 :=
  if x then (o.got + u) &&& mask else o.got &&& mask

/-- One batch of `m` OTs for the positions from `i` on, BitInjection.cpp 109-136, 141-163 and 174-201: the receiver
(party 1) sends the differences, the sender (party 0) answers. -/
def injBatch (outBits : Nat) (mask : BitVec 32) (in0 in1 : List Row) (w : Nat) (ots : List Ot) (i : Nat) :
    Res (List (BitVec 32) × List (BitVec 32)) := do
  let xs ← mapRes (inBit in1 w) (List.range' i ots.length)
  let ys ← mapRes (inBit in0 w) (List.range' i ots.length)
  let diff := List.zipWith (fun x (o : Ot) => x ^^ o.c) xs ots
  let snd := List.zipWith (fun (o : Ot) (p : Bool × Bool) => injSend mask o p.1 p.2) ots (ys.zip diff)
  let buff := pack outBits (snd.map Prod.snd)
  let upd ← unpack outBits buff ots.length
  .ok (snd.map Prod.fst, List.zipWith (fun (o : Ot) (p : Bool × BitVec 32) => injRecv mask o p.1 p.2) ots (xs.zip upd))

/-- The `while (i < out.size())` loops of both parties over the batches. -/
def injLoop (outBits : Nat) (mask : BitVec 32) (in0 in1 : List Row) (w total : Nat) :
    List (List Ot) → Nat → Res (List (BitVec 32) × List (BitVec 32))
  | [], i => if total ≤ i then .ok ([], []) else .error .throw
  | b :: bs, i =>
    if total ≤ i then .ok ([], [])
    else do
      let ots := b.take (min b.length (total - i))
      let (a0, a1) ← injBatch outBits mask in0 in1 w ots i
      let (r0, r1) ← injLoop outBits mask in0 in1 w total bs (i + ots.length)
      .ok (a0 ++ r0, a1 ++ r1)

/-- `BitInject::bitInjection` of both parties, BitInjection.cpp 64-205, after `init(rowCount, w, gen)`. The result has
the elements of `out` in row order. -/
def bitInjection (rowCount w outBits : Nat) (in0 in1 : Mat Row) (bs : List (List Ot)) :
    Res (List (BitVec 32) × List (BitVec 32)) := do
  throwIf (decide (w > in0.cols * 8) || decide (w > in1.cols * 8))
  throwIf (in0.rows.length != rowCount || in1.rows.length != rowCount)
  let mask ← injMask outBits
  throwIf (decide ((bs.map List.length).sum < rowCount * w))
  injLoop outBits mask in0.rows in1.rows w (rowCount * w) bs 0

/-! ## One-hot digits -/

/-- The wires of the circuit, RadixSort.cpp 1296-1309: the `L` index bits, the `2^L` outputs, then the inner nodes.
`nodeWire L t` is node `t` of the combined list of inner nodes and leaves, line 1315. -/
def nodeWire (L t : Nat) : Nat := if t < 2 ^ L - 1 then L + 2 ^ L + t else L + (t - (2 ^ L - 1))

/-- The gates of `initIndexToOneHotCircuit`, RadixSort.cpp 1317-1340. -/
def oneHotOps (L : Nat) : List Gmw.Op :=
  (List.range (2 ^ L - 1)).flatMap fun i =>
    [.gate ⟨nodeWire L i, L - 1 - Nat.log2 (i + 1), nodeWire L ((i + 1) * 2), .and⟩,
     .gate ⟨nodeWire L i, nodeWire L ((i + 1) * 2), nodeWire L ((i + 1) * 2 - 1), .xor⟩]

/-- The circuit on the index bits `x`: the root node is the constant one (line 1312), `j`-th output. -/
def oneHot (L : Nat) (x : Nat → Bool) (j : Nat) : Bool :=
  Gmw.evalOps (oneHotOps L) (fun w => if w = nodeWire L 0 then true else x w) (L + j)

/-- The bytes holding the bits `f 0, .., f (n-1)`, the last one filled with zeros. -/
def bitRow (n : Nat) (f : Nat → Bool) : Row :=
  (List.range (divCeil n 8)).map fun b =>
    (BitVec.ofBoolListLE ((List.range 8).map fun k => decide (b * 8 + k < n) && f (b * 8 + k))).setWidth 8

/-- `fBin` before packing for `bitCount = 1`, RadixSort.cpp 427-436. -/
def oneBitRow (role : Nat) (k : Byte) : Byte :=
  if role ≠ 0 then (k <<< 1) ||| (~~~k &&& 1) else (k <<< 1) ||| (k &&& 1)

/-- Packing four rows into a byte, RadixSort.cpp 474-495. The last, partial byte takes the rows that are left. -/
def pack4 : List Byte → List Byte
  | a :: b :: c :: d :: r => ((a &&& 3) ||| ((b &&& 3) <<< 2) ||| ((c &&& 3) <<< 4) ||| ((d &&& 3) <<< 6)) :: pack4 r
  | [] => []
  | [a] => [a &&& 3]
  | [a, b] => [((b &&& 3) <<< 2) ||| (a &&& 3)]
  | [a, b, c] => [((c &&& 3) <<< 4) ||| (((b &&& 3) <<< 2) ||| (a &&& 3))]

/-- Packing two rows into a byte, RadixSort.cpp 497-520. -/
def pack2 : List Byte → List Byte
  | a :: b :: r => ((a &&& 15) ||| ((b &&& 15) <<< 4)) :: pack2 r
  | [a] => [a &&& 15]
  | [] => []

/-- The shares of the one-hot rows, packed, RadixSort.cpp 413-535. `oh i j` is the GMW mask of output bit `j` of row
`i`. GMW reads the low `L` bits of each byte of the shares `k0`, `k1`. -/
def oneHotShares (L : Nat) (oh : Nat → Nat → Bool) (k0 k1 : List Byte) : List Byte × List Byte :=
  if L = 1 then (pack4 (k0.map (oneBitRow 0)), pack4 (k1.map (oneBitRow 1)))
  else
    let v := List.zipWith (· ^^^ ·) k0 k1
    let r0 := (List.range v.length).map fun i => bitRow (2 ^ L) (oh i)
    let r1 := (List.range v.length).map fun i =>
      bitRow (2 ^ L) fun j => oh i j ^^ oneHot L (fun t => (v.getD i 0).getLsbD t) j
    if L = 2 then (pack2 r0.flatten, pack2 r1.flatten) else (r0.flatten, r1.flatten)

/-! ## Running sums -/

def addRow (a b : List (BitVec 32)) : List (BitVec 32) := List.zipWith (· + ·) a b

/-- The first loop over the rows, RadixSort.cpp 567-592: the rows of `s` and the last `partialSum`. -/
def runSums : List (List (BitVec 32)) → List (BitVec 32) → List (List (BitVec 32)) × List (BitVec 32)
  | [], p => ([], p)
  | f :: fs, p =>
    let p' := addRow p f
    let (s, q) := runSums fs p'
    (p' :: s, q)

/-- The exclusive prefix sums of `partialSum`, RadixSort.cpp 594-600. -/
def exclusive : BitVec 32 → List (BitVec 32) → List (BitVec 32)
  | _, [] => []
  | prev, s0 :: r => prev :: exclusive (prev + s0) r

/-- `aggregateSum(f, s, partyIdx)`, RadixSort.cpp 554-623. -/
def aggregateSum (f : List (List (BitVec 32))) (L2 party : Nat) : List (List (BitVec 32)) :=
  let p0 := (List.replicate L2 (0 : BitVec 32)).set 0 (-(BitVec.ofNat 32 party))
  let (s, p) := runSums f p0
  s.map fun r => addRow r (exclusive 0 p)

/-! ## Inner products -/

/-- `*oc::BitIterator((u8*)f.data(), k)`. -/
def flatBit (m : List Byte) (k : Nat) : Res Bool := do
  let b ← rd m (k / 8)
  .ok (b.getLsbD (k % 8))

/-- What the party running `hadamardSumRecv` computes at one position, RadixSort.cpp 181-196: the message `tt` and `r`.
`d` is the received difference, `f` and `s` its shares. -/
def hadReply (o : Ot) (d f : Bool) (s : BitVec 32) : BitVec 32 × BitVec 32 :=
  let m0 := o.msg d
  let m1 := o.msg (!d)
  let r := m0 - word f * s
  let v1 := word (!f) * s + r
  (v1 - m1, r)

/-- One row: the party running `hadamardSumSend` (bits `fP`) sends `choice ^ fk`, adds its OT message and later
`tt * fk`, RadixSort.cpp 106-118 and 129-137; the other one (bits `fQ`, values `sQ`) subtracts `r`. The two passes of
the first party are taken together. The count is the number of columns left. -/
def hadRow (fP fQ : List Byte) (sQ : List (BitVec 32)) : List Ot → Nat → Nat → BitVec 32 → BitVec 32 →
    Res (BitVec 32 × BitVec 32)
  | _, 0, _, p, q => .ok (p, q)
  | [], _ + 1, _, _, _ => .error .ub
  | o :: os, c + 1, k, p, q => do
    let a ← flatBit fP k
    let b ← flatBit fQ k
    let s ← rd sQ k
    let t := hadReply o (o.c ^^ a) b s
    hadRow fP fQ sQ os c (k + 1) (p + o.got + t.1 * word a) (q - t.2)

/-- The rows of one batch. -/
def hadRows (fP fQ : List Byte) (sQ : List (BitVec 32)) (cols : Nat) (ots : List Ot) (i : Nat) : Nat →
    Res (List (BitVec 32 × BitVec 32))
  | 0 => .ok []
  | m + 1 => do
    let x ← hadRow fP fQ sQ ots cols (i * cols) 0 0
    let r ← hadRows fP fQ sQ cols (ots.drop cols) (i + 1) m
    .ok (x :: r)

/-- The loops over the batches of `hadamardSumSend` and `hadamardSumRecv`, RadixSort.cpp 97-137 and 163-200. -/
def hadLoop (fP fQ : List Byte) (sQ : List (BitVec 32)) (rows cols : Nat) :
    List (List Ot) → Nat → Res (List (BitVec 32 × BitVec 32))
  | [], i => if rows ≤ i then .ok [] else .error .throw
  | b :: bs, i =>
    if rows ≤ i then .ok []
    else do
      throwIf (b.length % cols != 0)
      let m := min (rows - i) (b.length / cols)
      let x ← hadRows fP fQ sQ cols b i m
      let r ← hadLoop fP fQ sQ rows cols bs (i + m)
      .ok (x ++ r)

/-- The width of the arithmetic-to-binary circuit, RadixSort.cpp 261 and 1344. -/
def sumBits (n : Nat) : Nat := max 1 (Nat.clog 2 n)

/-- Keep the low `w` bits. -/
def lowBits (w : Nat) (x : BitVec 32) : BitVec 32 := BitVec.ofNat 32 (x.toNat % 2 ^ w)

/-- `hadamardSum`, RadixSort.cpp 230-280, both parties. `otA` are the OTs of the direction in which party 0 chooses,
`otB` of the other one. Input 0 of the adder is party 1's word, input 1 party 0's (lines 270-271); it adds the low
`sumBits` bits modulo `2^sumBits`. -/
def hadamardSum (n L2 : Nat) (f0 f1 : List Byte) (s0 s1 : List (BitVec 32)) (otA otB : List (List Ot))
    (mask : Nat → BitVec 32) : Res (List (BitVec 32) × List (BitVec 32)) := do
  let a ← hadLoop f0 f1 s1 n L2 otA 0
  let b ← hadLoop f1 f0 s0 n L2 otB 0
  let sh0 := List.zipWith (fun (x y : BitVec 32 × BitVec 32) => y.2 + x.1) a b
  let sh1 := List.zipWith (fun (x y : BitVec 32 × BitVec 32) => x.2 + y.1) a b
  let w := sumBits sh0.length
  let out := List.zipWith (fun x1 x0 => lowBits w (lowBits w x1 + lowBits w x0)) sh1 sh0
  .ok ((List.range out.length).map fun i => lowBits w (mask i),
    (List.range out.length).map fun i => lowBits w (mask i) ^^^ out.getD i 0)

/-! ## genBitPerm and genPerm -/

/-- The randomness of a round: masks of the one-hot circuit, OTs of the bit injection and of the two directions of the
inner product, masks of the adder. -/
structure RoundRnd where
  oh : Nat → Nat → Bool
  inj : List (List Ot)
  otA : List (List Ot)
  otB : List (List Ot)
  mask : Nat → BitVec 32

/-- `f.reshape(rows, cols)`. -/
def rowsOf (cols : Nat) (v : List α) : Nat → List (List α)
  | 0 => []
  | n + 1 => v.take cols :: rowsOf cols (v.drop cols) n

/-- `genBitPerm`, RadixSort.cpp 725-790, with `genValMasks2` 401-550, for a sort of `n` rows with digits of `L` bits. -/
def genBitPerm (n L : Nat) (k0 k1 : List Byte) (r : RoundRnd) : Res (List (BitVec 32) × List (BitVec 32)) := do
  throwIf (decide (L > 8))
  throwIf (k0.length != n || k1.length != n)
  let (b0, b1) := oneHotShares L r.oh k0 k1
  let (f0, f1) ← bitInjection 1 (n * 2 ^ L) 32 ⟨b0.length, [b0]⟩ ⟨b1.length, [b1]⟩ r.inj
  let s0 := aggregateSum (rowsOf (2 ^ L) f0 n) (2 ^ L) 0
  let s1 := aggregateSum (rowsOf (2 ^ L) f1 n) (2 ^ L) 1
  hadamardSum n (2 ^ L) b0 b1 s0.flatten s1.flatten r.otA r.otB r.mask

/-- A column of bytes as a matrix. -/
def byteCol (v : List Byte) : Mat Row := ⟨1, v.map fun b => [b]⟩

/-- Back from a matrix with one column. -/
def colBytes (m : Mat Row) : Res (List Byte) := mapRes (fun r => rd r 0) m.rows

/-- The rounds after the first, RadixSort.cpp 1162-1211: round `i` uses the preprocessed permutation of round `i - 1`.
The count is the number of rounds left; `mRounds` has an entry for each of them. -/
def genPermLoop (n L : Nat) (k0 k1 : Mat Row) : Nat → List (ComposedPerm × ComposedPerm × RoundRnd) → Nat →
    List (BitVec 32) → List (BitVec 32) → Res (List (BitVec 32) × List (BitVec 32))
  | 0, _, _, d0, d1 => .ok (d0, d1)
  | _ + 1, [], _, _, _ => .error .ub
  | left + 1, (c0, c1, r) :: rs, kIdx, d0, d1 => do
    let sk0 ← extract kIdx L k0
    let sk1 ← extract kIdx L k1
    let (c0, c1) ← ComposedPerm.derandomizeBoth c0 c1 d0 d1
    let (c0, c1, o0, o1) ← ComposedPerm.applyBoth c0 c1 .inverse (byteCol sk0) (byteCol sk1)
    let ssk0 ← colBytes o0
    let ssk1 ← colBytes o1
    let (p0, p1) ← genBitPerm n L ssk0 ssk1 r
    let (_, _, d0, d1) ← ComposedPerm.composeBoth c0 c1 p0 p1
    genPermLoop n L k0 k1 left rs (kIdx + L) d0 d1

/-- The checks of `genPerm`, RadixSort.cpp 1113-1116, of one party. -/
def checkKey (n bits : Nat) (k : BinMatrix) : Res Unit := do
  throwIf (k.rows.length != n)
  throwIf (k.bits != bits)

/-- `genPerm`, RadixSort.cpp 1095-1219, of both parties, after `init` with `n` rows, `bits` bits and `mL = L`.
`first` is the randomness of round 0; `rest` holds for the later rounds the preprocessed permutation and the randomness.
There are `divCeil(bits, L)` rounds; with none, `mRounds[0]` is out of bounds. -/
def genPerm (n bits L : Nat) (k0 k1 : BinMatrix) (first : RoundRnd)
    (rest : List (ComposedPerm × ComposedPerm × RoundRnd)) : Res (List (BitVec 32) × List (BitVec 32)) := do
  checkKey n bits k0
  checkKey n bits k1
  let sk0 ← extract 0 L k0.mat
  let sk1 ← extract 0 L k1.mat
  if divCeil bits L = 0 then .error .ub
  else do
    let (d0, d1) ← genBitPerm n L sk0 sk1 first
    genPermLoop n L k0.mat k1.mat (divCeil bits L - 1) rest L d0 d1

/-- `genPerm` with `mInsecureMock`: `mockSort`, RadixSort.cpp 1355-1379. Party 0 sends its share in the clear and
outputs zeros. -/
def mockSort (n bits : Nat) (k0 k1 : BinMatrix) : Res (List (BitVec 32) × List (BitVec 32)) := do
  checkKey n bits k0
  checkKey n bits k1
  let data := List.zipWith xorRow k0.rows k1.rows
  let inv ← (Perm.mk (plainSort data)).inverse
  .ok (List.replicate n 0, inv.pi.map (BitVec.ofNat 32))

end Radix
end SecJoin
