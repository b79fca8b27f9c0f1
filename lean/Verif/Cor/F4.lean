import Verif.Basic
/-!
# Arithmetic in the field of four elements

Model of `CoeffCtxGF4` in `/repo/secure-join/CorGenerator/F4Vole/F4CoeffCtx.h`.
-/
namespace SecJoin
namespace F4

/-- A 128-bit block, packed with 64 field elements of two bits. -/
abbrev Block := BitVec 128

/-- `block::allSame<u8>(0b01010101)`. -/
def mask : Block := BitVec.ofNat 128 0x55555555555555555555555555555555

/-- `x >> 1` on blocks. The library shifts the two 64-bit halves; `wide` allows a shift of the whole block as well. -/
def shr1 (wide : Bool) (x : Block) : Block := if wide then x >>> 1 else (x >>> 1) &&& ~~~(1#128 <<< 63)

/-- `x << 1` on blocks, as above. -/
def shl1 (wide : Bool) (x : Block) : Block := if wide then x <<< 1 else (x <<< 1) &&& ~~~(1#128 <<< 64)

/-- Block times scalar, F4CoeffCtx.h 43-81. A scalar above three fails an assertion. -/
def mul (wide : Bool) (lhs : Block) (rhs : BitVec 8) : Res Block :=
  let lsb := lhs &&& mask
  let msb := shr1 wide lhs &&& mask
  if rhs = 0 then .ok 0
  else if rhs = 1 then .ok lhs
  else if rhs = 2 then
    let rlsb := msb
    let rmsb := lsb ^^^ msb
    .ok (rlsb ||| shl1 wide rmsb)
  else if rhs = 3 then
    let rlsb := lsb ^^^ msb
    let rmsb := lsb
    .ok (rlsb ||| shl1 wide rmsb)
  else .error .ub

/-- Scalar times scalar, F4CoeffCtx.h 83-121. -/
def mulG (lhs rhs : BitVec 8) : Res (BitVec 8) :=
  let lsb := lhs &&& 1
  let msb := (lhs >>> 1) &&& 1
  if rhs = 0 then .ok 0
  else if rhs = 1 then .ok lhs
  else if rhs = 2 then
    let rlsb := msb
    let rmsb := lsb ^^^ msb
    .ok (rlsb ||| (rmsb <<< 1))
  else if rhs = 3 then
    let rlsb := lsb ^^^ msb
    let rmsb := lsb
    .ok (rlsb ||| (rmsb <<< 1))
  else .error .ub

/-- `mulConst` on blocks, F4CoeffCtx.h 123-127. -/
def mulConst (wide : Bool) (x : Block) : Res Block := mul wide x 3

/-- `fromBlock` to a block, F4CoeffCtx.h 165-169. -/
def fromBlockF (b : Block) : Block := b &&& BitVec.ofNat 128 (0xffffffffffffffff * 2 ^ 64 + 0xfffffffffffffffc)

/-- `fromBlock` to a scalar, F4CoeffCtx.h 170-174. -/
def fromBlockG (b : Block) : BitVec 8 := b.setWidth 8 &&& 3

end F4
end SecJoin
