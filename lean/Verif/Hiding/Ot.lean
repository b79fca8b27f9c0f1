import Verif.Sort.Radix
/-!
# The transcripts of the OT-based steps of the sort

The functions of `Sort/Radix.lean` with the messages kept: bit injection (`/repo/secure-join/Sort/BitInjection.cpp`) and the inner
products (`/repo/secure-join/Sort/RadixSort.cpp`).
-/
namespace SecJoin
namespace Radix

/-- One batch of the bit injection, BitInjection.cpp 109-136, 141-163 and 174-201, as `injBatch`, with the differences sent by party 1 and
the bytes sent by party 0. -/
def injBatchView (outBits : Nat) (mask : BitVec 32) (in0 in1 : List Row) (w : Nat) (ots : List Ot) (i : Nat) :
    Res (List Bool × List Byte × List (BitVec 32) × List (BitVec 32)) := do
  let xs ← mapRes (inBit in1 w) (List.range' i ots.length)
  let ys ← mapRes (inBit in0 w) (List.range' i ots.length)
  let diff := List.zipWith (fun x (o : Ot) => x ^^ o.c) xs ots
  let snd := List.zipWith (fun (o : Ot) (p : Bool × Bool) => injSend mask o p.1 p.2) ots (ys.zip diff)
  let buff := pack outBits (snd.map Prod.snd)
  let upd ← unpack outBits buff ots.length
  .ok (diff, buff, snd.map Prod.fst, List.zipWith (fun (o : Ot) (p : Bool × BitVec 32) => injRecv mask o p.1 p.2) ots (xs.zip upd))

/-- The loops over the batches, as `injLoop`; the messages of the batches one after the other. -/
def injLoopView (outBits : Nat) (mask : BitVec 32) (in0 in1 : List Row) (w total : Nat) :
    List (List Ot) → Nat → Res (List Bool × List Byte × List (BitVec 32) × List (BitVec 32))
  | [], i => if total ≤ i then .ok ([], [], [], []) else .error .throw
  | b :: bs, i =>
    if total ≤ i then .ok ([], [], [], [])
    else do
      let ots := b.take (min b.length (total - i))
      let (d, m, a0, a1) ← injBatchView outBits mask in0 in1 w ots i
      let (ds, ms, r0, r1) ← injLoopView outBits mask in0 in1 w total bs (i + ots.length)
      .ok (d ++ ds, m ++ ms, a0 ++ r0, a1 ++ r1)

/-- `BitInject::bitInjection` of both parties, BitInjection.cpp 64-205, as `bitInjection` with the messages. -/
def injView (rowCount w outBits : Nat) (in0 in1 : Mat Row) (bs : List (List Ot)) :
    Res (List Bool × List Byte × List (BitVec 32) × List (BitVec 32)) := do
  throwIf (decide (w > in0.cols * 8) || decide (w > in1.cols * 8))
  throwIf (in0.rows.length != rowCount || in1.rows.length != rowCount)
  let mask ← injMask outBits
  throwIf (decide ((bs.map List.length).sum < rowCount * w))
  injLoopView outBits mask in0.rows in1.rows w (rowCount * w) bs 0

/-- One row of the inner products, RadixSort.cpp 106-118, 129-137 and 181-196, as `hadRow`, with the bits sent by the one party and the values
sent back. -/
def hadRowView (fP fQ : List Byte) (sQ : List (BitVec 32)) : List Ot → Nat → Nat → BitVec 32 → BitVec 32 →
    Res (List Bool × List (BitVec 32) × BitVec 32 × BitVec 32)
  | _, 0, _, p, q => .ok ([], [], p, q)
  | [], _ + 1, _, _, _ => .error .ub
  | o :: os, c + 1, k, p, q => do
    let a ← flatBit fP k
    let b ← flatBit fQ k
    let s ← rd sQ k
    let d := o.c ^^ a
    let t := hadReply o d b s
    let (ds, ts, p, q) ← hadRowView fP fQ sQ os c (k + 1) (p + o.got + t.1 * word a) (q - t.2)
    .ok (d :: ds, t.1 :: ts, p, q)

/-- The rows of one batch, as `hadRows`. -/
def hadRowsView (fP fQ : List Byte) (sQ : List (BitVec 32)) (cols : Nat) (ots : List Ot) (i : Nat) : Nat →
    Res (List Bool × List (BitVec 32) × List (BitVec 32 × BitVec 32))
  | 0 => .ok ([], [], [])
  | m + 1 => do
    let (d, t, p, q) ← hadRowView fP fQ sQ ots cols (i * cols) 0 0
    let (ds, ts, r) ← hadRowsView fP fQ sQ cols (ots.drop cols) (i + 1) m
    .ok (d ++ ds, t ++ ts, (p, q) :: r)

/-- The loops over the batches of `hadamardSumSend` and `hadamardSumRecv`, RadixSort.cpp 97-137 and 163-200, as `hadLoop`. -/
def hadView (fP fQ : List Byte) (sQ : List (BitVec 32)) (rows cols : Nat) :
    List (List Ot) → Nat → Res (List Bool × List (BitVec 32) × List (BitVec 32 × BitVec 32))
  | [], i => if rows ≤ i then .ok ([], [], []) else .error .throw
  | b :: bs, i =>
    if rows ≤ i then .ok ([], [], [])
    else do
      throwIf (b.length % cols != 0)
      let m := min (rows - i) (b.length / cols)
      let (d, t, x) ← hadRowsView fP fQ sQ cols b i m
      let (ds, ts, r) ← hadView fP fQ sQ rows cols bs (i + m)
      .ok (d ++ ds, t ++ ts, x ++ r)

end Radix
end SecJoin
