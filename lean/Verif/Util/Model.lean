import Verif.PermCor.Model
/-!
# Bit matrices, trimming, sharing and hexadecimal text

Model of `/repo/secure-join/Util/Trim.{h,cpp}`, `Util/Matrix.h`, the sharing helpers of
`Util/Util.h`, `hex` and the sign helpers of `Defines.h` and `fromHex` of `Join/Table.h`.

A `oc::Matrix<u8>` is its width and the list of its rows (`Mat Row`). A `prng.get(ptr, n)` is a
function `rnd` giving the drawn value at each position; theorems quantify over all such functions.
-/
namespace SecJoin

/-! ## Trim.cpp -/

/-- `mod8 ? ((1 << mod8) - 1) : z` as `u8`, Trim.cpp 30 (`z = ~0`) and 113 (`z = 0`). -/
def tailMask (mod8 : Nat) (z : Byte) : Byte := if mod8 ≠ 0 then (1#8 <<< mod8) - 1 else z

/-- `memcmp(a, b, n) == 0`; reading past the end of either buffer is undefined behaviour. -/
def memEq (n : Nat) (a b : Row) : Res Bool :=
  if n ≤ a.length ∧ n ≤ b.length then .ok (a.take n == b.take n) else .error .ub

/-- Body of the row loop of `areEqualImpl`, Trim.cpp 39-51; also 81-93. -/
def rowEq (div8 mod8 : Nat) (mask : Byte) (a b : Row) : Res Bool := do
  let c1 ← (if div8 ≠ 0 then memEq div8 a b else .ok true)
  if !c1 then .ok false
  else if mod8 ≠ 0 then do
    let x ← rd a div8
    let y ← rd b div8
    .ok ((mask &&& (x ^^^ y)) == 0)
  else .ok true

/-- The row loop with early `return false`, Trim.cpp 36-53. -/
def rowsEq (div8 mod8 : Nat) (mask : Byte) : List Row → List Row → Res Bool
  | [], _ => .ok true
  | _ :: _, [] => .error .ub
  | a :: as, b :: bs => do
    let c ← rowEq div8 mod8 mask a b
    if !c then .ok false else rowsEq div8 mod8 mask as bs

/-- `areEqualImpl(MatrixView, MatrixView, bitCount)`, Trim.cpp 7-62. `stride()` of a matrix is its
width. The `memcmp` of line 60 over the whole buffers is the comparison of all rows, because both
matrices have the same shape there. -/
def areEqualMat (a b : Mat Row) (bitCount : Nat) : Res Bool := do
  let mod8 := bitCount % 8
  let div8 := bitCount / 8
  throwIf (a.rows.length != b.rows.length)
  throwIf (a.cols * 8 < bitCount)
  throwIf (b.cols * 8 < bitCount)
  if mod8 ≠ 0 ∨ a.cols ≠ div8 ∨ b.cols ≠ div8 then do
    throwIf (div8 > a.cols)
    throwIf (div8 > b.cols)
    let mask := tailMask mod8 0xff
    throwIf ((bitCount + 7) / 8 > a.cols)
    rowsEq div8 mod8 mask a.rows b.rows
  else do
    throwIf (div8 > a.cols)
    .ok (a.rows == b.rows)

/-- `areEqualImpl(span, span, bitCount)`, Trim.cpp 65-100. -/
def areEqualSpan (a b : Row) (bitCount : Nat) : Res Bool := do
  let mod8 := bitCount % 8
  let div8 := bitCount / 8
  throwIf (a.length * 8 < bitCount)
  throwIf (b.length * 8 < bitCount)
  if mod8 ≠ 0 then rowEq div8 mod8 (tailMask mod8 0xff) a b
  else memEq div8 a b

/-- Body of the row loop of `trimImpl`, Trim.cpp 117-121: byte `div8` is masked, the later bytes up
to the stride are zeroed. -/
def trimRow (div8 : Nat) (mask : Byte) (r : Row) : Res Row := do
  let x ← rd r div8
  .ok (r.take div8 ++ [x &&& mask] ++ List.replicate (r.length - (div8 + 1)) 0)

/-- `trimImpl`, Trim.cpp 103-123. -/
def trimMat (a : Mat Row) (bits : Nat) : Res (Mat Row) := do
  throwIf (bits > a.cols * 8)
  if bits = a.cols * 8 then .ok a
  else do
    let mod8 := bits % 8
    let div8 := bits / 8
    let rows ← mapRes (trimRow div8 (tailMask mod8 0)) a.rows
    .ok ⟨a.cols, rows⟩

/-! ## Matrix.h -/

/-- `struct BinMatrix`, Util/Matrix.h 13-25: `mBitCount`, and the bytes `mData` (row width and rows). -/
structure BinMatrix where
  bits : Nat
  cols : Nat
  rows : List Row
deriving DecidableEq, Repr

namespace BinMatrix

/-- The byte matrix `mData`. -/
def mat (m : BinMatrix) : Mat Row := ⟨m.cols, m.rows⟩

/-- `resize(rows, bits, aligment)` of an empty matrix, Util/Matrix.h 38-42: all bytes are zero. -/
def zero (rows bits : Nat) (alignment : Nat := 1) : BinMatrix :=
  let c := divCeil bits (8 * alignment)
  ⟨bits, c, List.replicate rows (List.replicate c 0)⟩

/-- `reshape`, Util/Matrix.h 45-50. -/
def reshape (m : BinMatrix) (bitCount : Nat) : Res BinMatrix := do
  throwIf (bitCount > m.cols * 8)
  .ok { m with bits := bitCount }

/-- `operator==`, Util/Matrix.h 120-137. `size()` is the number of bytes. -/
def beq (m b : BinMatrix) : Res Bool :=
  if m.rows.length ≠ b.rows.length then .ok false
  else if m.bits ≠ b.bits then .ok false
  else if m.rows.length * m.cols = b.rows.length * b.cols ∧ m.bits = m.cols * 8 then
    .ok (m.rows == b.rows)
  else areEqualMat m.mat b.mat m.bits

/-- `trim`, Util/Matrix.h 143-146. -/
def trim (m : BinMatrix) : Res BinMatrix := do
  let r ← trimMat m.mat m.bits
  .ok { m with rows := r.rows }

/-- `subMatrix(rowIdx, count)`, Util/Matrix.h 150-157: a view of whole rows. -/
def subMatrix (m : BinMatrix) (rowIdx count : Nat) : Res (Mat Row) := do
  throwIf (rowIdx ≥ m.rows.length)
  throwIf (rowIdx + count > m.rows.length)
  .ok ⟨m.cols, (m.rows.drop rowIdx).take count⟩

end BinMatrix

/-! ## Sharing, Util.h -/

/-- `prng.get(x0.data(), x0.size())` for a matrix of `n` rows of `c` entries. -/
def randRows (rnd : Nat → Nat → α) (n c : Nat) : List (List α) :=
  (List.range n).map fun i => (List.range c).map fun j => rnd i j

/-- `x[i].back() &= mask`, Util.h 79-80 and 100-101; `back()` of an empty row is undefined. -/
def maskBack (mask : Byte) (r : Row) : Res Row :=
  match r.getLast? with
  | none => .error .ub
  | some x => .ok (r.dropLast ++ [x &&& mask])

/-- Masking of the last bytes of one share, Util.h 74-82 and 95-103. -/
def maskRows (bitCount : Nat) (x : List Row) : Res (List Row) :=
  if bitCount % 8 ≠ 0 then mapRes (maskBack ((1#8 <<< (bitCount % 8)) - 1)) x else .ok x

/-- `share(const Matrix<u8>& x, bitCount, x0, x1, prng)`, Util.h 63-83. -/
def shareBytes (rnd : Nat → Nat → Byte) (x : Mat Row) (bitCount : Nat) :
    Res (Mat Row × Mat Row) := do
  throwIf (x.cols != divCeil bitCount 8)
  let x0 := randRows rnd x.rows.length x.cols
  let x1 := List.zipWith xorRow x.rows x0
  let x0 ← maskRows bitCount x0
  let x1 ← maskRows bitCount x1
  .ok (⟨x.cols, x0⟩, ⟨x.cols, x1⟩)

/-- `share(const BinMatrix& x, x0, x1, prng)`, Util.h 86-104. The shares are resized to
`divCeil(bits, 8)` columns and the loop of line 92 runs over the bytes of `x` with a flat index;
this is only meaningful when `x` has that width, so any other width is given the outcome `ub`
(a wider `x` overruns the shares; a narrower one leaves bytes unshared). -/
def shareBin (rnd : Nat → Nat → Byte) (x : BinMatrix) : Res (BinMatrix × BinMatrix) :=
  let c := divCeil x.bits 8
  if x.cols ≠ c then .error .ub
  else do
    let x0 := randRows rnd x.rows.length c
    let x1 := List.zipWith xorRow x.rows x0
    let x0 ← maskRows x.bits x0
    let x1 ← maskRows x.bits x1
    .ok (⟨x.bits, c, x0⟩, ⟨x.bits, c, x1⟩)

/-- `reveal(const BinMatrix&, const BinMatrix&)`, Util.h 188-205. The result has
`divCeil(bits, 8)` columns while the loop runs over the bytes of `v1`: other widths are given the
outcome `ub`, as for `shareBin`. -/
def revealBin (v1 v2 : BinMatrix) : Res BinMatrix := do
  throwIf (v1.rows.length != v2.rows.length)
  throwIf (v1.bits != v2.bits)
  if v1.cols ≠ divCeil v1.bits 8 ∨ v2.cols ≠ v1.cols then .error .ub
  else .ok ⟨v1.bits, v1.cols, List.zipWith xorRow v1.rows v2.rows⟩

/-- `reveal(MatrixView<u8>, MatrixView<u8>)`, Util.h 207-224. -/
def revealBytes (v1 v2 : Mat Row) : Res (Mat Row) := do
  throwIf (v1.rows.length != v2.rows.length)
  throwIf (v1.cols != v2.cols)
  .ok ⟨v1.cols, List.zipWith xorRow v1.rows v2.rows⟩

/-- `xorShare<T>(MatrixView<T>, prng)`, Util.h 26-42, for `T` a machine word of `w` bits
(`u8`, `u32`, `block`); also `share(Matrix<u8>, prng)`, Util.h 135-150. -/
def xorShareMat (rnd : Nat → Nat → BitVec w) (d : Mat (List (BitVec w))) :
    Mat (List (BitVec w)) × Mat (List (BitVec w)) :=
  let s0 := randRows rnd d.rows.length d.cols
  (⟨d.cols, s0⟩, ⟨d.cols, List.zipWith (List.zipWith (· ^^^ ·)) d.rows s0⟩)

/-- `reveal(MatrixView<block>, MatrixView<block>)`, Util.h 14-20, with word width as parameter.
The shape of `x1` is not checked by the code; a smaller `x1` is read out of bounds. -/
def xorRevealMat (x0 x1 : Mat (List (BitVec w))) : Res (Mat (List (BitVec w))) :=
  if x0.rows.length = x1.rows.length ∧ x0.cols = x1.cols then
    .ok ⟨x0.cols, List.zipWith (List.zipWith (· ^^^ ·)) x0.rows x1.rows⟩
  else .error .ub

/-- `share(const Matrix<u32>&, x0, x1, prng)`, Util.h 44-52, and `share(Matrix<u32>, prng)`,
Util.h 152-167: additive shares modulo `2^32`. -/
def addShareMat (rnd : Nat → Nat → BitVec 32) (x : Mat (List (BitVec 32))) :
    Mat (List (BitVec 32)) × Mat (List (BitVec 32)) :=
  let s0 := randRows rnd x.rows.length x.cols
  (⟨x.cols, s0⟩, ⟨x.cols, List.zipWith (List.zipWith (· - ·)) x.rows s0⟩)

/-- `reveal(const Matrix<u32>&, const Matrix<u32>&)`, Util.h 118-124. -/
def addRevealMat (x0 x1 : Mat (List (BitVec 32))) : Res (Mat (List (BitVec 32))) :=
  if x0.rows.length = x1.rows.length ∧ x0.cols = x1.cols then
    .ok ⟨x0.cols, List.zipWith (List.zipWith (· + ·)) x0.rows x1.rows⟩
  else .error .ub

/-- `share(span<u32>, x0, x1, prng)`, Util.h 54-61. -/
def addShareVec (rnd : Nat → BitVec 32) (x : List (BitVec 32)) :
    List (BitVec 32) × List (BitVec 32) :=
  let s0 := (List.range x.length).map rnd
  (s0, List.zipWith (· - ·) x s0)

/-- `xorShare(span<const u32>, prng)`, Util.h 169-185. The vector is filled twice; the second draw
`rnd` replaces the first, `rnd0`. -/
def xorShareVec (rnd0 rnd : Nat → BitVec 32) (x : List (BitVec 32)) :
    List (BitVec 32) × List (BitVec 32) :=
  let s0 := (List.range x.length).map rnd0
  let s0 := (List.range s0.length).map rnd
  (s0, List.zipWith (· ^^^ ·) x s0)

/-- `reveal(const AdditivePerm&, const AdditivePerm&)`, Util.h 110-116: XOR of the two share
vectors; a shorter `x1` is read out of bounds. -/
def revealAdditivePerm (x0 x1 : List (BitVec 32)) : Res (List (BitVec 32)) :=
  if x0.length ≤ x1.length then .ok (List.zipWith (· ^^^ ·) x0 x1) else .error .ub

/-- `reveal(const std::vector<u8>&, const std::vector<u8>&)`, Util.h 126-133. It adds. -/
def revealVecU8 (x0 x1 : List Byte) : Res (List Byte) :=
  if x0.length = x1.length then .ok (List.zipWith (· + ·) x0 x1) else .error .ub

/-! ## Hexadecimal text -/

/-- A lower-case digit as printed by `std::hex`. -/
def hexDigit (n : Nat) : Byte := if n < 10 then BitVec.ofNat 8 (48 + n) else BitVec.ofNat 8 (87 + n)

/-- `hex(span<const u8>)`, Defines.h 98-105. `setw(2) << setfill('0')` pads each byte to two
digits. Text is a list of bytes. -/
def hex : List Byte → List Byte
  | [] => []
  | b :: t => hexDigit (b.toNat / 16) :: hexDigit (b.toNat % 16) :: hex t

/-- One digit of `fromHex(char, char, u8&)`, Table.h 22-29 and 31-38. `char` is compared as an
unsigned byte here; codes from `0x80` on satisfy none of the three tests for either signedness. -/
def fromHexDigit (a : Byte) : Res Byte :=
  if 48 ≤ a.toNat ∧ a.toNat ≤ 57 then .ok (a - 48)
  else if 97 ≤ a.toNat ∧ a.toNat ≤ 102 then .ok (a - 97 + 10)
  else if 65 ≤ a.toNat ∧ a.toNat ≤ 70 then .ok (a - 65 + 10)
  else .error .throw

/-- `fromHex(char, char, u8&)`, Table.h 19-39. -/
def fromHexPair (a b : Byte) : Res Byte := do
  let x ← fromHexDigit a
  let y ← fromHexDigit b
  .ok (x <<< 4 ||| y)

/-- The loop of `fromHex(string, span)`, Table.h 46-49: `k` bytes left, starting at byte `i`. -/
def fromHexLoop (data : List Byte) : Nat → Nat → Res (List Byte)
  | 0, _ => .ok []
  | k + 1, i => do
    let a ← rd data (i * 2)
    let b ← rd data (i * 2 + 1)
    let x ← fromHexPair a b
    let t ← fromHexLoop data k (i + 1)
    .ok (x :: t)

/-- `fromHex(const std::string& data, span<u8> dst)`, Table.h 41-50; `n` is `dst.size()`. -/
def fromHex (data : List Byte) (n : Nat) : Res (List Byte) := do
  throwIf (data.length != n * 2)
  fromHexLoop data n 0

/-! ## Sign helpers, Defines.h -/

/-- `getSign`, Defines.h 39-44. -/
def getSign (val : List Byte) (index : Nat) : Res Bool := do
  let x ← rd val (index / 8)
  .ok (((x >>> (index % 8)) &&& 1) != 0)

/-- `fillInplace`, Defines.h 46-64. -/
def fillInplace (val : List Byte) (index : Nat) (bit : Bool) : Res (List Byte) :=
  let i := index / 8
  let o := index % 8
  let fill : Byte := if bit then 0xff else 0
  if o ≠ 0 then do
    let mask : Byte := 0xff#8 <<< (o + 1)
    let x ← rd val i
    let y := if bit then x ||| mask else x &&& ~~~mask
    .ok (val.take i ++ [y] ++ List.replicate (val.length - (i + 1)) fill)
  else .ok (val.take i ++ List.replicate (val.length - i) fill)

/-- `signExtend`, Defines.h 69-79. Shifting a 64 bit value by 64 is undefined. -/
def signExtend64 (val : BitVec 64) (bit : Nat) : Res (BitVec 64) :=
  if bit + 1 ≥ 64 then .error .ub
  else
    let sign := (val &&& (1#64 <<< bit)) != 0
    let mask := BitVec.allOnes 64 <<< (bit + 1)
    .ok (if sign then val ||| mask else val &&& ~~~mask)

end SecJoin
