import Verif.PermCor.Model
import Verif.Prf.Mod3
/-!
# Table-driven binary codes

Model of `/repo/secure-join/Prf/F2LinearCode.{h,cpp}`.
-/
namespace SecJoin
namespace F2

open Mod3 (Block)

/-- The block with bit `f p` at position `p`. -/
def mkBlock (f : Nat → Bool) : Block := (BitVec.ofBoolListLE ((List.range 128).map f)).cast (by simp)

/-- The block stored in 16 bytes of memory, least significant byte first. -/
def blockOfBytes (r : List Byte) : Block := mkBlock fun p => (r.getD (p / 8) 0).getLsbD (p % 8)

/-- F2LinearCode.cpp 83-84: the bytes of a row of the matrix are added to the first bytes of a row of the table. -/
def xorInto (t g : List Byte) : List Byte := List.zipWith (· ^^^ ·) (t.take g.length) g ++ t.drop g.length

/-- F2LinearCode.cpp 77-86: row `j` of the table of a subcode, given eight rows of the matrix; `w` is its number of bytes. -/
def tabRow (Gi : List (List Byte)) (w j : Nat) : List Byte :=
  (List.range 8).foldl (fun t k => if j.testBit k then xorInto t (Gi.getD k []) else t) (List.replicate w 0)

/-- F2LinearCode.cpp 70-89: the table of subcode `i`. The loop starts at row 1, row 0 stays zero. -/
def subTable (G : List (List Byte)) (w i : Nat) : List (List Byte) :=
  List.replicate w 0 :: (List.range 255).map fun j => tabRow ((G.drop (8 * i)).take 8) w (j + 1)

/-- `generateSubcodes()`, F2LinearCode.cpp 52-91, for a matrix with `c` bytes in each row. The number of subcodes is rounded up
to a multiple of eight, and each reads eight rows: rows past the end of the matrix are out of bounds. -/
def generateSubcodes (G : List (List Byte)) (c : Nat) : Res (List (List (List Byte))) := do
  throwIf (decide (64 * 8 < G.length))
  let ns := divCeil (divCeil G.length 8) 8 * 8
  if G.length < 8 * ns ∧ 0 < c then .error .ub
  else .ok ((List.range ns).map (subTable G (16 * divCeil c 16)))

/-- `init(g)`, F2LinearCode.cpp 16-35. -/
def init (G : List (List Byte)) (c : Nat) : Res (List (List (List Byte))) := do
  let t ← generateSubcodes G c
  throwIf (divCeil c 16 != 1)
  throwIf (divCeil G.length 8 != 16)
  .ok t

/-- Entry `v` of table `i`, as a block. -/
def entry (t : List (List (List Byte))) (i : Nat) (v : Byte) : Block := blockOfBytes ((t.getD i []).getD v.toNat [])

/-- `input.get<u8>(i)`. -/
def byteOf (x : Block) (i : Nat) : Byte := x.extractLsb' (8 * i) 8

/-- `encode(input, codeword)`, F2LinearCode.h 37-110: eight accumulators over two steps, added in a tree. -/
def encode (t : List (List (List Byte))) (x : Block) : Block :=
  let c := (List.range 2).foldl (fun (c : Nat → Block) s a => c a ^^^ entry t (8 * s + a) (byteOf x (8 * s + a))) fun _ => 0
  let c0 := c 0 ^^^ c 4
  let c1 := c 1 ^^^ c 5
  let c2 := c 2 ^^^ c 6
  let c3 := c 3 ^^^ c 7
  let c0 := c0 ^^^ c2
  let c1 := c1 ^^^ c3
  c0 ^^^ c1

/-- `encodeN<N>(in, out)`, F2LinearCode.h 323-370: the accumulators start with the first table and the other fifteen are added
one after another. The outputs are written at the end, so `in` and `out` may be the same. -/
def encodeN (t : List (List (List Byte))) (xs : List Block) : List Block :=
  let c := xs.map fun x => entry t 0 (byteOf x 0)
  (List.range 15).foldl (fun c j => List.zipWith (fun c x => c ^^^ entry t (j + 1) (byteOf x (j + 1))) c xs) c

end F2
end SecJoin
