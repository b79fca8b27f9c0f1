import Verif.Cor.Simd
import Verif.Cor.F4
import Verif.Prf.Sample
/-!
# From raw correlations to the delivered ones

Model of the `compressSender` and `compressRecver` functions, of the `mock` functions and of `getCor` in
`/repo/secure-join/CorGenerator/{BinOle,Ot,TritOt,F4BitOt}Batch.cpp`. The fixed-key hash `hashBlocks` is any function `H` on blocks. Arrays
of blocks are written through pointers to bytes and 16-bit words; sizes are multiples of 128 here as they are for all batches.
-/
namespace SecJoin
namespace Cor

open Mod3 (Block)
open F2 (mkBlock)
open Simd

/-- The blocks in memory that hold the bytes `l`. -/
def ofBytes (l : List (BitVec 8)) : List Block :=
  (List.range (l.length / 16)).map fun k => mkBlock fun p => (l.getD (16 * k + p / 8) 0).getLsbD (p % 8)

/-- The blocks in memory that hold the 16-bit words `l`. -/
def of16 (l : List (BitVec 16)) : List Block :=
  (List.range (l.length / 8)).map fun k => mkBlock fun p => (l.getD (8 * k + p / 16) 0).getLsbD (p % 16)

/-- `shuffle[i]`, BinOleBatch.cpp 276-279. -/
def shuf (i : Nat) : Block := mkBlock fun p => p % 8 == 7 && p / 8 != i

/-- The sum in the shape of a tree, BinOleBatch.cpp 359-376. -/
def tree (a : Nat → Block) : Block :=
  let a := fun k => a k ^^^ a (k + 8)
  let a := fun k => a k ^^^ a (k + 4)
  let a := fun k => a k ^^^ a (k + 2)
  a 0 ^^^ a 1

/-- Sixteen blocks to sixteen bits, BinOleBatch.cpp 342-380 (and 440-455 with 493-533, F4BitOtBatch.cpp 538-576, 679-717), with the
instructions given. -/
def gatherWith (sh : Block → Block → Block) (sl : Nat → Block → Block) (mm : Block → BitVec 16) (m : Nat → Block) : BitVec 16 :=
  mm (sl 7 (tree fun k => sh (m k) (shuf k)))

def gather : (Nat → Block) → BitVec 16 := gatherWith shuffle slli16 movemask

/-- `m.testc(OneBlock)`. -/
def testcOne (m : Block) : BitVec 32 := if ~~~m &&& 1 = 0 then 1 else 0

/-- Eight choice bits to a byte, BinOleBatch.cpp 302-310. -/
def pack8 (b : Nat → BitVec 32) : BitVec 8 :=
  (b 0 ^^^ (b 1 <<< 1) ^^^ (b 2 <<< 2) ^^^ (b 3 <<< 3) ^^^ (b 4 <<< 4) ^^^ (b 5 <<< 5) ^^^ (b 6 <<< 6) ^^^ (b 7 <<< 7)).setWidth 8

/-- Eight choice bits that are stored one position higher, F4BitOtBatch.cpp 510-518. -/
def pack8Msb (b : Nat → BitVec 32) : BitVec 8 :=
  ((b 0 >>> 1) ^^^ b 1 ^^^ (b 2 <<< 1) ^^^ (b 3 <<< 2) ^^^ (b 4 <<< 3) ^^^ (b 5 <<< 4) ^^^ (b 6 <<< 5) ^^^ (b 7 <<< 6)).setWidth 8

/-- All bits but the lowest one; all but the lowest two. -/
def maskOne : Block := 1#128 ^^^ BitVec.allOnes 128
def maskTwo : Block := BitVec.ofNat 128 (0xffffffffffffffff * 2 ^ 64 + 0xfffffffffffffffc)

/-! ## Binary OLE -/

/-- `OleBatch::RecvBatch::compressRecver`, BinOleBatch.cpp 262-386, into `na` and `nm` blocks, with `g` for
sixteen blocks to sixteen bits: additive and multiplicative bits. -/
def oleRecv (g : (Nat → Block) → BitVec 16) (H : Block → Block) (A : List Block) (na nm : Nat) : Res (List Block × List Block) := do
  throwIf (na * 128 != A.length)
  throwIf (nm * 128 != A.length)
  if A.length = 0 then .error .ub else
  let ap := (List.range (A.length / 16)).map fun t => g fun j => H (A.getD (16 * t + j) 0 &&& maskOne)
  let b := (List.range (A.length / 8)).map fun t => pack8 fun j => testcOne (A.getD (8 * t + j) 0)
  .ok (of16 ap, ofBytes b)

/-- `OleBatch::SendBatch::compressSender`, BinOleBatch.cpp 389-542: additive and multiplicative bits. -/
def oleSend (g : (Nat → Block) → BitVec 16) (H : Block → Block) (delta : Block) (B : List Block) (na nm : Nat) : Res (List Block × List Block) := do
  throwIf (na * 128 != B.length)
  throwIf (nm * 128 != B.length)
  let delta := delta &&& maskOne
  let ap := (List.range (B.length / 16)).map fun t => g fun j => H (B.getD (16 * t + j) 0 &&& maskOne)
  let bp := (List.range (B.length / 16)).map fun t => g fun j => H ((B.getD (16 * t + j) 0 &&& maskOne) ^^^ delta)
  .ok (of16 ap, of16 (List.zipWith (· ^^^ ·) ap bp))

/-- Shifts of blocks act on their 64-bit halves: high and low half. -/
abbrev Half := BitVec 64 × BitVec 64
def Half.rot (k : Nat) (x : Half) : Half := ((x.1 >>> k) ||| (x.1 <<< k), (x.2 >>> k) ||| (x.2 <<< k))
def Half.add (x y : Half) : Half := (x.1 + y.1, x.2 + y.2)

/-- The loop of `mock`, BinOleBatch.cpp 89-110 and 128-149: eight blocks for each of `n` rounds. -/
def mockRounds (step : Half) : Nat → Half → List Half
  | 0, _ => []
  | n + 1, x => (List.range 8).map (fun k => if k = 0 then x else x.rot k) ++ mockRounds step n (x.add step)

/-- `OleBatch::SendBatch::mock`, BinOleBatch.cpp 79-116, and `RecvBatch::mock`, 118-155, for `m` blocks, with the encrypted batch number
`s`: additive and multiplicative halves. -/
def oleMockSend (s : Half) (m : Nat) : List Half × List Half :=
  (mockRounds (0, 43254534) (m / 8) (0, s.2) ++ (List.range (m - m / 8 * 8)).map (fun i => (0, BitVec.ofNat 64 (m / 8 * 8 + i))),
   mockRounds (4532453452, 43254534) (m / 8) s ++
    (List.range (m - m / 8 * 8)).map (fun i => (BitVec.ofNat 64 (m / 8 * 8 + i), BitVec.ofNat 64 (m / 8 * 8 + i))))

def oleMockRecv (s : Half) (m : Nat) : List Half × List Half :=
  (mockRounds (4532453452, 0) (m / 8) (s.1, 0) ++ (List.range (m - m / 8 * 8)).map (fun i => (BitVec.ofNat 64 (m / 8 * 8 + i), 0)),
   mockRounds (4532453452, 43254534) (m / 8) s ++
    (List.range (m - m / 8 * 8)).map (fun i => (BitVec.ofNat 64 (m / 8 * 8 + i), BitVec.ofNat 64 (m / 8 * 8 + i))))

/-- `subspan(begin / 128, size / 128)`, BinOleBatch.cpp 24-27, TritOtBatch.cpp 27-48, F4BitOtBatch.cpp 28-44. -/
def deliver {T : Type} (l : List T) (begin size : Nat) : Res (List T) :=
  if begin % 128 ≠ 0 ∨ size % 128 ≠ 0 then .error .ub
  else if l.length < begin / 128 + size / 128 then .error .ub
  else .ok ((l.drop (begin / 128)).take (size / 128))

/-! ## Plain OT -/

/-- `OtBatch::SendOtBatch::mock`, OtBatch.cpp 55-67, with the encrypted batch number `s`, for `n` OTs; `i` is 32 bits wide. -/
def otMockSend (s : Block) (n : Nat) : List (Block × Block) :=
  (List.range n).map fun i =>
    ((BitVec.ofNat 64 i ++ BitVec.ofNat 64 i : Block) ^^^ s, (~~~BitVec.ofNat 64 i ++ ~~~BitVec.ofNat 64 i : Block) ^^^ s)

/-- `OtBatch::RecvOtBatch::mock`, OtBatch.cpp 30-44: choices and messages. All bytes of the choices are the first byte of `s`. -/
def otMockRecv (s : Block) (n : Nat) : List Bool × List Block :=
  let choice := (List.range n).map fun i => (s.setWidth 8).getLsbD (i % 8)
  (choice, (List.range n).map fun i =>
    let m0 : Block := (BitVec.ofNat 64 i ++ BitVec.ofNat 64 i : Block) ^^^ s
    let m1 : Block := (~~~BitVec.ofNat 64 i ++ ~~~BitVec.ofNat 64 i : Block) ^^^ s
    if choice.getD i false then m1 else m0)

/-- The slice of plain OTs, OtBatch.cpp 79 and 89. -/
def slice {T : Type} (l : List T) (begin size : Nat) : Res (List T) :=
  if l.length < begin + size then .error .ub else .ok ((l.drop begin).take size)

/-- The choices that go with it, OtBatch.cpp 91-97: moved out when the piece has the size of the batch. -/
def sliceChoice (l : List Bool) (begin size : Nat) : Res (List Bool) :=
  if size = l.length then .ok l else slice l begin size

/-! ## Trit OT -/

/-- `mapM` in the order of the loop. -/
def forTrits (f : Nat → Res (BitVec 8 × BitVec 8)) (n : Nat) : Res (List (BitVec 8 × BitVec 8)) := mapRes f (List.range n)

/-- `TritOtBatch::RecvBatch::compressRecver`, TritOtBatch.cpp 387-446: choices, high bits, low bits. -/
def tritRecv (H : Block → Block) (A : List Block) : Res (List Block × List Block × List Block) := do
  throwIf (A.length % 128 != 0)
  let c := (List.range (A.length / 8)).map fun t => pack8 fun j => store32 (A.getD (8 * t + j) 0 &&& 1)
  let d ← forTrits (fun t => Mod3.sample8 ((List.range 8).map fun j => H (A.getD (8 * t + j) 0 &&& maskOne)) 0 0 0) (A.length / 8)
  .ok (ofBytes c, ofBytes (d.map (·.1)), ofBytes (d.map (·.2)))

/-- `TritOtBatch::SendBatch::compressSender`, TritOtBatch.cpp 449-514: high and low bits of message 0, then of message 1. The loop
samples the two messages alternately; either may be undefined. -/
def tritSend (H : Block → Block) (delta : Block) (B : List Block) : Res ((List Block × List Block) × (List Block × List Block)) := do
  throwIf (B.length % 128 != 0)
  let delta := delta &&& maskOne
  let d0 ← forTrits (fun t => Mod3.sample8 ((List.range 8).map fun j => H (B.getD (8 * t + j) 0 &&& maskOne)) 0 0 0) (B.length / 8)
  let d1 ← forTrits (fun t => Mod3.sample8 ((List.range 8).map fun j => H ((B.getD (8 * t + j) 0 &&& maskOne) ^^^ delta)) 0 0 0) (B.length / 8)
  .ok ((ofBytes (d0.map (·.1)), ofBytes (d0.map (·.2))), (ofBytes (d1.map (·.1)), ofBytes (d1.map (·.2))))

/-- The constants of the trit mock, TritOtBatch.cpp 125-129 and 161-166. `CCBlock` has all bytes `0xCC`. -/
def ccBlock : Block := BitVec.ofNat 128 0xcccccccccccccccccccccccccccccccc
def tritLsb0 : Block := (BitVec.ofNat 64 12342342342134231234 ++ BitVec.ofNat 64 2342341234123421341 : Block) &&& ccBlock
def tritLsb1 : Block := (BitVec.ofNat 64 13563456435643564356 ++ BitVec.ofNat 64 5734542341345236357 : Block) &&& ccBlock
def tritMsb0 : Block := ~~~tritLsb0 &&& ccBlock
def tritMsb1 : Block := ~~~tritLsb1 &&& ccBlock

/-- `TritOtBatch::SendBatch::mock`, TritOtBatch.cpp 104-143, for `m` blocks. -/
def tritMockSend (m : Nat) : (List Block × List Block) × (List Block × List Block) :=
  ((List.replicate m tritMsb0, List.replicate m tritLsb0), (List.replicate m tritMsb1, List.replicate m tritLsb1))

/-- `TritOtBatch::RecvBatch::mock`, TritOtBatch.cpp 145-177. -/
def tritMockRecv (m : Nat) : List Block × List Block × List Block :=
  let c := fun i => (BitVec.ofNat 64 343524129893458929 ++ BitVec.ofNat 64 2453289232749293483 : Block) ^^^
    (BitVec.ofNat 64 (i * 2 ^ 32 + i) ++ BitVec.ofNat 64 (i * 2 ^ 32 + i) : Block)
  ((List.range m).map c, (List.range m).map (fun i => (tritMsb0 &&& ~~~(c i)) ^^^ (tritMsb1 &&& c i)),
    (List.range m).map (fun i => (tritLsb0 &&& ~~~(c i)) ^^^ (tritLsb1 &&& c i)))

/-! ## F4-bit OT -/

/-- `F4BitOtBatch::RecvBatch::compressRecver`, F4BitOtBatch.cpp 446-582: messages, low and high choice bits. The arrays are made 128 times
too long; the part that is never written is left out here. The code reads groups of 16 and does not check the length; lengths that are not
multiples of 128 do not occur (TritOt and OLE refuse them) and are undefined here. -/
def f4Recv (H : Block → Block) (A : List Block) : Res (List Block × List Block × List Block) :=
  if A.length = 0 ∨ A.length % 128 ≠ 0 then .error .ub
  else
    let lsb := (List.range (A.length / 8)).map fun t => pack8 fun j => store32 (A.getD (8 * t + j) 0 &&& 1)
    let msb := (List.range (A.length / 8)).map fun t => pack8Msb fun j => store32 (A.getD (8 * t + j) 0 &&& 2)
    let ap := (List.range (A.length / 16)).map fun t => gather fun j => H (A.getD (16 * t + j) 0 &&& maskTwo)
    .ok (of16 ap, ofBytes lsb, ofBytes msb)

/-- `F4BitOtBatch::SendBatch::compressSender`, F4BitOtBatch.cpp 585-723: the four messages. Lengths as in `f4Recv`. The
debug-only assertion of line 634, that the low two bits of the raw block are zero, is left out: the bits are masked off just after. -/
def f4Send (wide : Bool) (H : Block → Block) (delta : Block) (B : List Block) : Res (List (List Block)) :=
  if B.length % 128 ≠ 0 then .error .ub
  else do
    let d1 := delta &&& maskTwo
    let d2 ← F4.mul wide d1 2
    let d3 ← F4.mul wide d1 3
    .ok ([0, d1, d2, d3].map fun d => of16 ((List.range (B.length / 16)).map fun t => gather fun j => H ((B.getD (16 * t + j) 0 &&& maskTwo) ^^^ d)))

/-- The mock functions of F4-bit OT, F4BitOtBatch.cpp 111-128 and 192-210, for `m` blocks: everything is zero. -/
def f4MockSend (m : Nat) : List (List Block) := List.replicate 4 (List.replicate m 0)
def f4MockRecv (m : Nat) : List Block × List Block × List Block := (List.replicate m 0, List.replicate m 0, List.replicate m 0)

end Cor
end SecJoin
