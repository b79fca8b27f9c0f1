import Verif.Prf.F2Code
/-!
# Vector instructions

Model of `/repo/secure-join/Util/Simd.h`: the instructions and the portable versions that replace them when the code is compiled without
SSE.
-/
namespace SecJoin
namespace Simd

open Mod3 (Block)
open F2 (mkBlock byteOf)

/-- `_mm_shuffle_epi8`, as described in Simd.h 31-40. -/
def shuffle (a b : Block) : Block :=
  mkBlock fun p => !(byteOf b (p / 8)).getLsbD 7 && a.getLsbD (8 * ((byteOf b (p / 8)).toNat % 16) + p % 8)

/-- `_mm_slli_epi16`. -/
def slli16 (s : Nat) (v : Block) : Block := mkBlock fun p => decide (s ≤ p % 16) && v.getLsbD (p - s)

/-- The 16-bit number with bit `f j` at position `j`. -/
def mk16 (f : Nat → Bool) : BitVec 16 := (BitVec.ofBoolListLE ((List.range 16).map f)).cast (by simp)

/-- `_mm_movemask_epi8`: the top bit of each byte. -/
def movemask (v : Block) : BitVec 16 := mk16 fun j => v.getLsbD (8 * j + 7)

/-- Portable `shuffle_epi8`, Simd.h 42-53. `-i8(bi >> 7)` is 1 for a negative byte, 0 otherwise. -/
def shuffleP (a b : Block) : Block :=
  mkBlock fun p =>
    let bi := byteOf b (p / 8)
    let mask : BitVec 8 := ~~~(if bi.getLsbD 7 then 1 else 0)
    (byteOf a (bi &&& 15).toNat &&& mask).getLsbD (p % 8)

/-- Portable `slli_epi16`, Simd.h 56-65, lane by lane. -/
def slli16P (s : Nat) (v : Block) : Block := mkBlock fun p => (v.extractLsb' (16 * (p / 16)) 16 <<< s).getLsbD (p % 16)

/-- Portable `movemask_epi8`, Simd.h 67-78, converted to 16 bits by its callers. -/
def movemaskP (v : Block) : BitVec 16 :=
  ((List.range 16).foldl (fun (r : BitVec 32) i => r ||| (((byteOf v 0).setWidth 32 >>> i) &&& (1#32 <<< i))) 0).setWidth 16

/-- `_mm_cmpeq_epi16`, as described in Simd.h 84-87. -/
def cmpeq16 (a b : Block) : Block := mkBlock fun p => a.extractLsb' (16 * (p / 16)) 16 == b.extractLsb' (16 * (p / 16)) 16

/-- One step of the portable `cmpeq_epi16`, Simd.h 96. The value is an `int`, so `set` writes the 32-bit lane `i`, of which there are four;
this is how the library's `block::set` treats its argument, which is not in the repository. -/
def cmpeqStep (a b r : Block) (i : Nat) : Res Block :=
  if 4 ≤ i then .error .ub
  else
    let v : BitVec 32 := if a.extractLsb' (16 * i) 16 = b.extractLsb' (16 * i) 16 then 0xffff else 0
    .ok (mkBlock fun p => if p / 32 = i then v.getLsbD (p % 32) else r.getLsbD p)

/-- Portable `cmpeq_epi16`, Simd.h 93-98; `r` is not initialised. No code calls it. -/
def cmpeqP (a b r : Block) : Res Block := (List.range 8).foldlM (fun r i => cmpeqStep a b r i) r

/-- `storeu_si32`, Simd.h 103-110. -/
def store32 (a : Block) : BitVec 32 := a.setWidth 32

end Simd
end SecJoin
