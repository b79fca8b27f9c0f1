import Mathlib.Data.BitVec
import Verif.Basic
/-!
# Bit-sliced arithmetic modulo three

Model of `/repo/secure-join/Prf/mod3.h`. A digit is held by one bit of each of two blocks, the high bit in the block
called `1` and the low bit in the block called `0`. Spans live in one memory of blocks, so that they may overlap.
-/
namespace SecJoin
namespace Mod3

/-- `oc::block`. -/
abbrev Block := BitVec 128

/-- `a.andnot_si128(b)` of cryptoTools. -/
def andnot (a b : Block) : Block := ~~~a &&& b

/-- `mod3Add(z1, z0, x1, x0, y1, y0)`, mod3.h 15-26, and the body of the loops 56-65 and 170-179. -/
def add (x1 x0 y1 y0 : Block) : Block × Block :=
  let x1x0 := x1 ^^^ x0
  (andnot (y0 ^^^ x0) (x1x0 ^^^ y1), andnot (x1 ^^^ y1) (x1x0 ^^^ y0))

/-- `mod3Sub(z1, z0, x1, x0, y1, y0)`, mod3.h 30-37. -/
def sub (x1 x0 y1 y0 : Block) : Block × Block := add x1 x0 y0 y1

/-- `mod3Add(z1, z0, x1, x0, y0)`, mod3.h 68-83: `y` is a bit. -/
def addBit (x1 x0 y0 : Block) : Block × Block :=
  let abc := (x1 ^^^ x0) &&& y0
  (x1 ^^^ abc, x0 ^^^ andnot x1 y0)

/-- The body of the loop of `mod3Sub(z1, z0, x1, x0, y0)`, mod3.h 127-135. -/
def subBit (x1 x0 y0 : Block) : Block × Block :=
  let x1x0 := x1 ^^^ x0
  (andnot x0 (x1x0 ^^^ y0), andnot (x1 ^^^ y0) x1x0)

/-- `mod3Add(z1, z0, y0)`, mod3.h 183-190: in place, `y` is a bit. -/
def incBit (z1 z0 y0 : Block) : Block × Block :=
  let x1x0 := z1 ^^^ z0
  (andnot (y0 ^^^ z0) x1x0, andnot z1 (x1x0 ^^^ y0))

/-! ## Spans -/

/-- Memory of blocks. -/
abbrev Mem := Nat → Block

/-- A store. -/
def Mem.set (m : Mem) (a : Nat) (v : Block) : Mem := fun i => if i = a then v else m i

/-- The loop over `n` blocks: at index `i` the operands at the addresses `rs` are read, then `z1[i]` and `z0[i]` are
written, in this order. -/
def spanOp (f : List Block → Block × Block) (z1 z0 : Nat) (rs : List Nat) : Nat → Mem → Mem
  | 0, m => m
  | k + 1, m =>
    let m := spanOp f z1 z0 rs k m
    let v := f (rs.map fun r => m (r + k))
    (m.set (z1 + k) v.1).set (z0 + k) v.2

/-- Operands as arguments. -/
def with4 (f : Block → Block → Block → Block → Block × Block) : List Block → Block × Block
  | [a, b, c, d] => f a b c d
  | _ => (0, 0)

/-- Operands as arguments. -/
def with3 (f : Block → Block → Block → Block × Block) : List Block → Block × Block
  | [a, b, c] => f a b c
  | _ => (0, 0)

/-- `mod3Add(z1, z0, x1, x0, y1, y0)` on spans, mod3.h 41-66. All spans have `n` blocks (asserted). -/
def addSpan (n z1 z0 x1 x0 y1 y0 : Nat) (m : Mem) : Mem := spanOp (with4 add) z1 z0 [x1, x0, y1, y0] n m

/-- `mod3Sub(z1, z0, x1, x0, y1, y0)` on spans, mod3.h 142-149. -/
def subSpan (n z1 z0 x1 x0 y1 y0 : Nat) (m : Mem) : Mem := addSpan n z1 z0 x1 x0 y0 y1 m

/-- `mod3Add(z1, z0, x1, x0, y0)` on spans, mod3.h 92-109. -/
def addBitSpan (n z1 z0 x1 x0 y0 : Nat) (m : Mem) : Mem := spanOp (with3 addBit) z1 z0 [x1, x0, y0] n m

/-- `mod3Sub(z1, z0, x1, x0, y0)` on spans, mod3.h 117-136. -/
def subBitSpan (n z1 z0 x1 x0 y0 : Nat) (m : Mem) : Mem := spanOp (with3 subBit) z1 z0 [x1, x0, y0] n m

/-- `mod3Add(z1, z0, y1, y0)` on spans, mod3.h 153-180. The pointers are `__restrict`: overlapping spans are undefined
behaviour, which is left to the hypotheses. -/
def incSpan (n z1 z0 y1 y0 : Nat) (m : Mem) : Mem := spanOp (with4 add) z1 z0 [z1, z0, y1, y0] n m

/-- `mod3Add(z1, z0, y0)` on spans, mod3.h 193-208, `__restrict` as well. -/
def incBitSpan (n z1 z0 y0 : Nat) (m : Mem) : Mem := spanOp (with3 incBit) z1 z0 [z1, z0, y0] n m

end Mod3
end SecJoin
