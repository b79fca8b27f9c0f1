import Verif.Table.Model
/-!
# Model of AggTree/PerfectShuffle.h

Reinterpreting bytes as little-endian words (`(u16*)input0.data()` and so on) is written out as
`leWord` and `wordBytes`; alignment and aliasing rules of C++ are not modelled.
-/
namespace SecJoin

/-- The little-endian word of the given bytes; missing bytes are zero. -/
def leWord (w : Nat) (r : Row) : BitVec w := BitVec.ofNat w (Table.bytesNat r)

/-- The first `k` bytes of a word, little-endian. -/
def wordBytes {w : Nat} (k : Nat) (x : BitVec w) : Row := (List.range k).map fun i => x.extractLsb' (8 * i) 8

/-- The mask `v` of `cPerfectShuffle_round<Shift>`, PerfectShuffle.h 14-20. -/
def roundMask : Nat → BitVec 32
  | 1 => 0x22222222
  | 2 => 0x0C0C0C0C
  | 4 => 0x00F000F0
  | 8 => 0x0000FF00
  | _ => 0

/-- `cPerfectShuffle_round<Shift>`, PerfectShuffle.h 22-29. -/
def cRound (s : Nat) (x : BitVec 32) : BitVec 32 :=
  let t := (x ^^^ (x >>> s)) &&& roundMask s
  x ^^^ t ^^^ (t <<< s)

/-- `cPerfectShuffle(u16, u16)`, PerfectShuffle.h 38-46. -/
def cShuffleWord (x0 x1 : BitVec 16) : BitVec 32 :=
  let x := x0.setWidth 32 ||| (x1.setWidth 32 <<< 16)
  cRound 1 (cRound 2 (cRound 4 (cRound 8 x)))

/-- `cPerfectUnshuffle(u32)`, PerfectShuffle.h 53-64. -/
def cUnshuffleWord (x : BitVec 32) : BitVec 16 × BitVec 16 :=
  let x := cRound 8 (cRound 4 (cRound 2 (cRound 1 x)))
  (x.setWidth 16, (x >>> 16).setWidth 16)

/-- The word loop of `cPerfectShuffle(span, span, span)`, PerfectShuffle.h 82-85: `k` words are left,
the next has index `i`. The result is what is written to the output. -/
def cShuffleLoop (in0 in1 : Row) : Nat → Nat → Res Row
  | 0, _ => .ok []
  | k + 1, i => do
    let a ← sliceRow (2 * i) 2 in0
    let b ← sliceRow (2 * i) 2 in1
    let t ← cShuffleLoop in0 in1 k (i + 1)
    .ok (wordBytes 4 (cShuffleWord (leWord 16 a) (leWord 16 b)) ++ t)

/-- `cPerfectShuffle(span, span, span)`, PerfectShuffle.h 68-95, for an output of `outSize` bytes.
`copyBytesMin` copies as many bytes as both sides have. -/
def cShuffle (in0 in1 : Row) (outSize : Nat) : Res Row := do
  throwIf (in0.length != in1.length)
  throwIf (in0.length != (outSize + 1) / 2)
  let n32 := outSize / 4
  let w ← cShuffleLoop in0 in1 n32 0
  let n8 := n32 * 4
  if outSize ≠ n8 then
    let x0 := leWord 16 ((in0.drop (n8 / 2)).take 2)
    let x1 := leWord 16 ((in1.drop (n8 / 2)).take 2)
    .ok (w ++ (wordBytes 4 (cShuffleWord x0 x1)).take (outSize - n8))
  else .ok w

/-- The word loop of `cPerfectUnshuffle(span, span, span)`, PerfectShuffle.h 109-117. -/
def cUnshuffleLoop (inp : Row) : Nat → Nat → Res (Row × Row)
  | 0, _ => .ok ([], [])
  | k + 1, i => do
    let a ← sliceRow (4 * i) 4 inp
    let t := cUnshuffleWord (leWord 32 a)
    let r ← cUnshuffleLoop inp k (i + 1)
    .ok (wordBytes 2 t.1 ++ r.1, wordBytes 2 t.2 ++ r.2)

/-- `cPerfectUnshuffle(span, span, span)`, PerfectShuffle.h 99-128; the outputs have `o0` and `o1`
bytes. -/
def cUnshuffle (inp : Row) (o0 o1 : Nat) : Res (Row × Row) := do
  throwIf (o0 != o1)
  throwIf (o0 != (inp.length + 1) / 2)
  let n32 := inp.length / 4
  let w ← cUnshuffleLoop inp n32 0
  let n8 := n32 * 4
  if inp.length ≠ n8 then
    let t := cUnshuffleWord (leWord 32 ((inp.drop n8).take 4))
    .ok (w.1 ++ (wordBytes 2 t.1).take (o0 - n8 / 2), w.2 ++ (wordBytes 2 t.2).take (o1 - n8 / 2))
  else .ok w

/-! ## The SSE versions -/

/-- Applying a function to the four 32-bit lanes of a block. -/
def mapLanes (f : BitVec 32 → BitVec 32) (x : BitVec 128) : BitVec 128 :=
  f (x.extractLsb' 96 32) ++ f (x.extractLsb' 64 32) ++ f (x.extractLsb' 32 32) ++ f (x.extractLsb' 0 32)

/-- `_mm_shuffle_epi8(y, b)` for indices below 16; `idx` lists the index of byte 0 first. -/
def shuffleBytes (y : BitVec 128) (idx : List Nat) : BitVec 128 :=
  leWord 128 (idx.map fun k => y.extractLsb' (8 * k) 8)

/-- `ssePerfectShuffle_round<Shift>`, PerfectShuffle.h 142-157; `_mm_srli_epi32` and
`_mm_slli_epi32` shift each lane. -/
def sseRound (s : Nat) (x : BitVec 128) : BitVec 128 :=
  let t := mapLanes (· >>> s) x
  let t := t ^^^ x
  let t := t &&& mapLanes (fun _ => roundMask s) 0
  let x := t ^^^ x
  let t := mapLanes (· <<< s) t
  t ^^^ x

/-- `ssePerfectShuffle(u64, u64)`, PerfectShuffle.h 232-244. -/
def sseShuffleWord (x0 x1 : BitVec 64) : BitVec 128 :=
  let y : BitVec 128 := x1 ++ x0
  let y := shuffleBytes y [0, 8, 1, 9, 2, 10, 3, 11, 4, 12, 5, 13, 6, 14, 7, 15]
  sseRound 1 (sseRound 2 (sseRound 4 y))

/-- `ssePerfectUnshuffle(block)`, PerfectShuffle.h 246-258. -/
def sseUnshuffleWord (y : BitVec 128) : BitVec 64 × BitVec 64 :=
  let y := sseRound 4 (sseRound 2 (sseRound 1 y))
  let y := shuffleBytes y [0, 2, 4, 6, 8, 10, 12, 14, 1, 3, 5, 7, 9, 11, 13, 15]
  (y.extractLsb' 0 64, y.extractLsb' 64 64)

/-- The loop over groups of eight blocks, PerfectShuffle.h 342-348 with the eight-block version of the
shuffle, 261-287. That version does each step for all eight blocks before the next step; here block
by block. `k` blocks are left, the next has index `i`. -/
def sseShuffleLoop (in0 in1 : Row) : Nat → Nat → Res Row
  | 0, _ => .ok []
  | k + 1, i => do
    let a ← sliceRow (8 * i) 8 in0
    let b ← sliceRow (8 * i) 8 in1
    let t ← sseShuffleLoop in0 in1 k (i + 1)
    .ok (wordBytes 16 (sseShuffleWord (leWord 64 a) (leWord 64 b)) ++ t)

/-- The tail loop, PerfectShuffle.h 350-370: `rem` input bytes are left, `n8` output bytes are
written. `fuel` bounds the number of iterations; running out of it is `diverge`. -/
def sseShuffleTail (in0 in1 : Row) (outSize : Nat) : Nat → Nat → Nat → Res Row
  | _, 0, _ => .ok []
  | 0, _ + 1, _ => .error .diverge
  | fuel + 1, rem + 1, n8 => do
    let min := Nat.min (rem + 1) 8
    let a ← sliceRow (n8 / 2) min in0
    let b ← sliceRow (n8 / 2) min in1
    let t := sseShuffleWord (leWord 64 a) (leWord 64 b)
    let min2 := Nat.min (outSize - n8) 16
    let r ← sseShuffleTail in0 in1 outSize fuel (rem + 1 - min) (n8 + min2)
    .ok ((wordBytes 16 t).take min2 ++ r)

/-- `ssePerfectShuffle(span, span, span)`, PerfectShuffle.h 332-371. The size checks are `assert`s. -/
def sseShuffle (in0 in1 : Row) (outSize : Nat) : Res Row := do
  if in0.length ≠ in1.length ∨ in0.length ≠ (outSize + 1) / 2 then .error .ub else
  let n1024 := outSize / 128
  let w ← sseShuffleLoop in0 in1 (n1024 * 8) 0
  let n8 := n1024 * 16 * 8
  let rem := in0.length - n8 / 2
  let t ← sseShuffleTail in0 in1 outSize rem rem n8
  .ok (w ++ t)

/-- The loop over groups of eight blocks, PerfectShuffle.h 383-393 and 287-330, block by block. -/
def sseUnshuffleLoop (inp : Row) : Nat → Nat → Res (Row × Row)
  | 0, _ => .ok ([], [])
  | k + 1, i => do
    let a ← sliceRow (16 * i) 16 inp
    let t := sseUnshuffleWord (leWord 128 a)
    let r ← sseUnshuffleLoop inp k (i + 1)
    .ok (wordBytes 8 t.1 ++ r.1, wordBytes 8 t.2 ++ r.2)

/-- The tail loop, PerfectShuffle.h 396-416: `d = input.size() - n8` input bytes are left. -/
def sseUnshuffleTail (inp : Row) (o0 o1 : Nat) : Nat → Nat → Nat → Res (Row × Row)
  | _, 0, _ => .ok ([], [])
  | 0, _ + 1, _ => .error .diverge
  | fuel + 1, d + 1, n8 => do
    let min := Nat.min (d + 1) 16
    let a ← sliceRow n8 min inp
    let t := sseUnshuffleWord (leWord 128 a)
    let min2 := Nat.min (o0 - n8 / 2) 8
    let r ← sseUnshuffleTail inp o0 o1 fuel (d + 1 - min) (n8 + min)
    .ok ((wordBytes 8 t.1).take min2 ++ r.1, (wordBytes 8 t.2).take min2 ++ r.2)

/-- `ssePerfectUnshuffle(span, span, span)`, PerfectShuffle.h 373-417. -/
def sseUnshuffle (inp : Row) (o0 o1 : Nat) : Res (Row × Row) := do
  if o0 ≠ o1 ∨ o0 ≠ (inp.length + 1) / 2 then .error .ub else
  let n1024 := inp.length / 128
  let w ← sseUnshuffleLoop inp (n1024 * 8) 0
  let n8 := n1024 * 16 * 8
  let t ← sseUnshuffleTail inp o0 o1 (inp.length - n8) (inp.length - n8) n8
  .ok (w.1 ++ t.1, w.2 ++ t.2)

/-- `perfectShuffle`, PerfectShuffle.h 420-427; `sse` tells whether `ENABLE_SSE` is defined. -/
def perfectShuffle (sse : Bool) (in0 in1 : Row) (outSize : Nat) : Res Row :=
  if sse then sseShuffle in0 in1 outSize else cShuffle in0 in1 outSize

/-- `perfectUnshuffle`, PerfectShuffle.h 429-436. -/
def perfectUnshuffle (sse : Bool) (inp : Row) (o0 o1 : Nat) : Res (Row × Row) :=
  if sse then sseUnshuffle inp o0 o1 else cUnshuffle inp o0 o1

end SecJoin
