import Verif.Prf.Sample
/-!
# The vector program of the bulk sampler of trits

`SampleBlock256` (`/repo/secure-join/Prf/mod3.cpp`) is a vector of eight 32 bit lanes, with AVX2 instructions or, without
`ENABLE_SSE`, with loops over the lanes. Every operation works on each lane separately, so one lane is modelled.
-/
namespace SecJoin
namespace Mod3

/-- The operations of one lane. -/
structure LaneOps where
  srli : Nat → BitVec 32 → BitVec 32
  sllv : BitVec 32 → BitVec 32 → Res (BitVec 32)
  add : BitVec 32 → BitVec 32 → Res (BitVec 32)

/-- With AVX2, mod3.cpp 309-379: logical shifts, sums modulo `2^32`; a left shift by 32 or more gives zero. -/
def sseOps : LaneOps where
  srli s v := v >>> s
  sllv v s := .ok (if s.toNat < 32 then v <<< s.toNat else 0)
  add a b := .ok (a + b)

/-- Without, mod3.cpp 383-503: the lanes are `i32`. The right shift keeps the sign, shifts by an amount outside 0..31 and sums
out of range are undefined. -/
def portableOps : LaneOps where
  srli s v := v.sshiftRight s
  sllv v s := if s.toNat < 32 then .ok (v <<< s.toNat) else .error .ub
  add a b := if -2 ^ 31 ≤ a.toInt + b.toInt ∧ a.toInt + b.toInt < 2 ^ 31 then .ok (a + b) else .error .ub

/-- One lane of `lsbSum`, `msbSum` and `size`. -/
structure LaneV where
  lsb : BitVec 32
  msb : BitVec 32
  size : BitVec 32
deriving DecidableEq

/-- `i32gather_epi32<4>`, mod3.cpp 370-374 and 459-468: the index is signed; outside of the table the read is undefined. -/
def gatherLane (t : List Nat) (i : BitVec 32) : Res (BitVec 32) :=
  if i.toInt < 0 then .error .ub else do
    let x ← rd t i.toNat
    .ok (.ofNat 32 x)

/-- The body of the loop over `k`, mod3.cpp 538-618, for one lane of each of the vectors that are left: `base` is the lane of
`indexBase`. The code does each step for all vectors before the next step. A failing `assert` throws. -/
def sampleWord (o : LaneOps) : BitVec 32 → List LaneV → Res (List LaneV)
  | _, [] => .ok []
  | base, s :: ss => do
    let idx := base &&& 255
    let base := o.srli 8 base
    let v ← gatherLane tabV idx
    let l ← gatherLane tabLsb idx
    let m ← gatherLane tabMsb idx
    let lsb ← o.sllv s.lsb v
    throwIf (lsb &&& l != 0)
    let lsb := lsb ||| l
    let msb ← o.sllv s.msb v
    let msb := msb ||| m
    throwIf (lsb &&& m != 0)
    let size ← o.add s.size v
    let r ← sampleWord o base ss
    .ok (⟨lsb, msb, size⟩ :: r)

/-- The loop over `k`, mod3.cpp 538-618, lane by lane: the words are those of one lane. -/
def sampleWords (o : LaneOps) : List (BitVec 32) → List LaneV → Res (List LaneV)
  | [], s => .ok s
  | w :: ws, s => do
    let s ← sampleWord o w s
    sampleWords o ws s

/-- The four vectors after `zero()`, mod3.cpp 531-536. -/
def zeroLanes : List LaneV := List.replicate 4 ⟨0, 0, 0⟩

end Mod3
end SecJoin
