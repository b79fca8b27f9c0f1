import Verif.Perm.Model
/-!
# Permutation correlations and composed shared permutations

Model of `/repo/secure-join/Perm/PermCorrelation.{h,cpp}`, `ComposedPerm.{h,cpp}` and
`InsecurePerm.h`.

A `oc::Matrix<block>` with `c` columns is the list of its rows, each a list of `16 * c` bytes
(`matrixCast<u8>`, Util/Matrix.h 314-335, only reinterprets the memory). A message is the matrix
that is sent; `chl.recv` into a buffer of another size throws.
-/
namespace SecJoin

abbrev Byte := BitVec 8
abbrev Row := List Byte

/-- The bytes `off, .., off+c-1` of one row of a matrix; outside of the row is undefined
behaviour (the pointer walks into the next row or past the matrix). -/
def sliceRow (off c : Nat) (r : Row) : Res Row :=
  if off + c ≤ r.length then .ok ((r.drop off).take c) else .error .ub

/-- `*d++ = *d1++ ^ *d2++` for one row of `c` bytes. -/
def xorRow (a b : Row) : Row := List.zipWith (· ^^^ ·) a b

/-- `xorShare(v1, byteOffset, v2, s)`, PermCorrelation.cpp 37-54: row by row over the rows of `s`
(`s` and `v2` have the same shape in all calls). -/
def xorShareOff (off c : Nat) : List Row → List Row → Res (List Row)
  | _, [] => .ok []
  | [], _ :: _ => .error .ub
  | r1 :: v1, r2 :: v2 => do
    let a ← sliceRow off c r1
    let t ← xorShareOff off c v1 v2
    .ok (xorRow a r2 :: t)

/-- `xorShare(v1, v2, s)`, PermCorrelation.cpp 56-67. -/
def xorShare (v1 v2 : Mat Row) : Res (List Row) := do
  throwIf (v1.rows.length != v2.rows.length)
  throwIf (v1.cols != v2.cols)
  .ok (List.zipWith xorRow v1.rows v2.rows)

/-- The copy loops PermCorrelation.cpp 163-170 and 177-184. -/
def copySlice (off c : Nat) : List Row → Res (List Row)
  | [] => .ok []
  | r :: t => do
    let a ← sliceRow off c r
    let t ← copySlice off c t
    .ok (a :: t)

/-- `struct PermCorSender`, PermCorrelation.h 20-31. `cols` is the width of `mDelta` in blocks. -/
structure PermCorSender where
  perm : Perm
  cols : Nat
  delta : List Row
  off : Nat
deriving DecidableEq

/-- `struct PermCorReceiver`, PermCorrelation.h 84-92. `cols` is the width of `mA` in blocks. -/
structure PermCorReceiver where
  cols : Nat
  a : List Row
  b : List Row
  off : Nat
deriving DecidableEq

namespace PermCorSender

/-- PermCorrelation.h 33. -/
def size (s : PermCorSender) : Nat := s.delta.length

/-- PermCorrelation.h 35. The subtraction is unsigned in the code; `off ≤ 16 * cols` is an
invariant (theorem `C05_history`), so that it does not wrap around. -/
def corSize (s : PermCorSender) : Nat := s.cols * 16 - s.off

/-- PermCorrelation.h 38. -/
def hasSetup (s : PermCorSender) (numBytes : Nat) : Bool := s.corSize ≥ numBytes

/-- A zero matrix, `Matrix::resize`. -/
def zeros (n c : Nat) : Mat Row := ⟨c, List.replicate n (List.replicate c 0)⟩

/-- `PermCorSender::apply(op, sout, chl)`, PermCorrelation.cpp 69-107. `outRows`, `outCols` is the
shape of `sout`, `msg` is the received matrix. -/
def applyRemote (s : PermCorSender) (op : PermOp) (outRows outCols : Nat) (msg : Mat Row) :
    Res (PermCorSender × Mat Row) := do
  throwIf (s.size == 0)
  throwIf (s.size != outRows)
  throwIf (decide (s.corSize < outCols))
  throwIf (msg.rows.length != s.size || msg.cols != outCols)
  match op with
  | .regular =>
    let xPermuted ← s.perm.apply msg (zeros s.size outCols) .regular
    let sout ← xorShareOff s.off outCols s.delta xPermuted.rows
    .ok ({ s with off := s.off + outCols }, ⟨outCols, sout⟩)
  | .inverse =>
    let xEnc ← xorShareOff s.off outCols s.delta msg.rows
    let sout ← s.perm.apply ⟨outCols, xEnc⟩ (zeros s.size outCols) .inverse
    .ok ({ s with off := s.off + outCols }, sout)

/-- `PermCorSender::apply(op, in, sout, chl)`, PermCorrelation.cpp 114-132. -/
def apply (s : PermCorSender) (op : PermOp) (inp : Mat Row) (outRows outCols : Nat)
    (msg : Mat Row) : Res (PermCorSender × Mat Row) := do
  throwIf (s.size == 0)
  let (s, sout) ← s.applyRemote op outRows outCols msg
  let xPermuted ← s.perm.apply inp (zeros inp.rows.length inp.cols) op
  let rows ← xorShare xPermuted sout
  .ok (s, ⟨outCols, rows⟩)

/-- `PermCorSender::derandomize`, PermCorrelation.h 61-75: new state and the message. -/
def derandomize (s : PermCorSender) (newPerm : Perm) : Res (PermCorSender × List Nat) := do
  let inv ← newPerm.inverse
  let delta ← inv.compose s.perm
  .ok ({ s with perm := newPerm }, delta.pi)

end PermCorSender

namespace PermCorReceiver

/-- PermCorrelation.h 94. -/
def size (r : PermCorReceiver) : Nat := r.a.length

/-- PermCorrelation.h 96, see `PermCorSender.corSize`. -/
def corSize (r : PermCorReceiver) : Nat := r.cols * 16 - r.off

/-- `PermCorReceiver::apply`, PermCorrelation.cpp 136-189: new state, message, output share.
`outRows`, `outCols` is the shape of `sout`. -/
def apply (r : PermCorReceiver) (op : PermOp) (inp : Mat Row) (outRows outCols : Nat) :
    Res (PermCorReceiver × Mat Row × Mat Row) := do
  throwIf (inp.rows.length != r.size || outRows != r.size || inp.cols != outCols)
  throwIf (r.size == 0)
  throwIf (decide (r.corSize < outCols))
  match op with
  | .regular =>
    let x ← xorShareOff r.off outCols r.a inp.rows
    let sout ← copySlice r.off outCols r.b
    .ok ({ r with off := r.off + outCols }, ⟨outCols, x⟩, ⟨outCols, sout⟩)
  | .inverse =>
    let x ← xorShareOff r.off outCols r.b inp.rows
    let sout ← copySlice r.off outCols r.a
    .ok ({ r with off := r.off + outCols }, ⟨outCols, x⟩, ⟨outCols, sout⟩)

/-- `PermCorReceiver::derandomize`, PermCorrelation.h 116-141. -/
def derandomize (r : PermCorReceiver) (msg : List Nat) : Res PermCorReceiver := do
  throwIf (msg.length != r.size)
  let aa ← (⟨msg⟩ : Perm).apply ⟨r.cols, r.a⟩ ⟨r.cols, List.replicate r.size []⟩ .regular
  .ok { r with a := aa.rows }

end PermCorReceiver

/-- Loop of `genPerm`, PermCorrelation.h 160-165: `mA(pi, j) = mDelta(i, j) ^ mB(i, j)` for all `j`;
`k` iterations from row `i`. -/
def genPermLoop (pi : List Nat) (delta b : List Row) : Nat → Nat → List Row → Res (List Row)
  | 0, _, a => .ok a
  | k + 1, i, a => do
    let p ← rd pi i
    let d ← rd delta i
    let bb ← rd b i
    let a ← wr a p (xorRow d bb)
    genPermLoop pi delta b k (i + 1) a

/-- `genPerm(p, s, r, sizeBytes, prng)`, PermCorrelation.h 147-166. `delta` and `b` are what the
generator fills into `mDelta` and `mB` (matrices of `p.size` rows and
`divCeil(sizeBytes, 16)` blocks). -/
def genPerm (p : Perm) (sizeBytes : Nat) (delta b : List Row) :
    Res (PermCorSender × PermCorReceiver) := do
  let cols := (sizeBytes + 15) / 16
  let a ← genPermLoop p.pi delta b p.size 0 (List.replicate p.size (List.replicate (16 * cols) 0))
  .ok (⟨p, cols, delta, 0⟩, ⟨cols, a, b, 0⟩)

/-- Loop of `validate(s, r)`, PermCorrelation.h 172-180. -/
def validateCorLoop (pi : List Nat) (delta a b : List Row) : Nat → Nat → Res Unit
  | 0, _ => .ok ()
  | k + 1, i => do
    let p ← rd pi i
    let aa ← rd a p
    let d ← rd delta i
    let bb ← rd b i
    throwIf (aa != xorRow d bb)
    validateCorLoop pi delta a b k (i + 1)

/-- `validate(const PermCorSender&, const PermCorReceiver&)`, PermCorrelation.h 169-181. -/
def validateCor (s : PermCorSender) (r : PermCorReceiver) : Res Unit :=
  validateCorLoop s.perm.pi s.delta r.a r.b s.perm.size 0

/-- `PermCorSender::validate` with the receiver's matrices as received,
PermCorrelation.cpp 6-34 (`mPerm.validate()` and then the same loop). -/
def validateCorNet (s : PermCorSender) (r : PermCorReceiver) : Res Unit := do
  s.perm.validate
  throwIf (r.a.length != s.delta.length || r.cols != s.cols)
  throwIf (r.b.length != s.delta.length)
  validateCorLoop s.perm.pi s.delta r.a r.b s.perm.size 0

/-- Both parties run one `apply`: the receiver with its input share `xr`, the sender with the
optional share `xs` (`none` is the overload for an input held by the receiver alone). The result
is the new states, the message and both output shares. -/
def applyBoth (s : PermCorSender) (r : PermCorReceiver) (op : PermOp) (xr : Mat Row)
    (xs : Option (Mat Row)) : Res (PermCorSender × PermCorReceiver × Mat Row × Mat Row × Mat Row) := do
  let (r, msg, rout) ← r.apply op xr xr.rows.length xr.cols
  let (s, sout) ← match xs with
    | none => s.applyRemote op xr.rows.length xr.cols msg
    | some x => s.apply op x xr.rows.length xr.cols msg
  .ok (s, r, msg, sout, rout)

/-! ## ComposedPerm -/

/-- `class ComposedPerm`, ComposedPerm.h 11-20. -/
structure ComposedPerm where
  idx : Nat
  snd : PermCorSender
  rcv : PermCorReceiver
deriving DecidableEq

namespace ComposedPerm

/-- ComposedPerm.h 40. -/
def size (c : ComposedPerm) : Nat := c.snd.size

/-- The checks at the start of `ComposedPerm::apply`, ComposedPerm.cpp 13-28; `out` has the shape
`outRows × outCols`. -/
def guard (c : ComposedPerm) (inp : Mat Row) (outRows outCols : Nat) : Res Unit := do
  throwIf (outRows != c.size)
  throwIf (outRows != inp.rows.length || outCols != inp.cols)
  throwIf (outRows != c.size)
  throwIf (decide (c.idx > 1))
  throwIf (c.snd.hasSetup inp.cols == false)

/-- The branch condition ComposedPerm.cpp 31: whether this party starts as the receiver. -/
def receiverFirst (c : ComposedPerm) (op : PermOp) : Bool :=
  (op == .inverse) ^^ (c.idx != 0)

/-- First `a` is the receiver and `b` the sender with inputs `xa`, `xb`; then the roles swap and the
intermediate outputs are the inputs (ComposedPerm.cpp 31-40, both branches). The result has the
new states and both output shares. -/
def twoPhase (a b : ComposedPerm) (op : PermOp) (xa xb : Mat Row) :
    Res (ComposedPerm × ComposedPerm × Mat Row × Mat Row) := do
  let (bs, ar, _, tb, ta) ← applyBoth b.snd a.rcv op xa (some xb)
  let (as, br, _, oa, ob) ← applyBoth a.snd b.rcv op tb (some ta)
  .ok (⟨a.idx, as, ar⟩, ⟨b.idx, bs, br⟩, oa, ob)

/-- Both parties run `ComposedPerm::apply<u8>`, ComposedPerm.cpp 6-42, with outputs shaped as the
inputs. If both parties take the same branch each waits for a message of the other kind
(both receive, or both send matrices that are not expected): modelled as `diverge`. -/
def applyBoth (c0 c1 : ComposedPerm) (op : PermOp) (x0 x1 : Mat Row) :
    Res (ComposedPerm × ComposedPerm × Mat Row × Mat Row) := do
  c0.guard x0 x0.rows.length x0.cols
  c1.guard x1 x1.rows.length x1.cols
  match c0.receiverFirst op, c1.receiverFirst op with
  | true, false => twoPhase c0 c1 op x0 x1
  | false, true =>
    let (c1, c0, o1, o0) ← twoPhase c1 c0 op x1 x0
    .ok (c0, c1, o0, o1)
  | _, _ => .error .diverge

end ComposedPerm

/-- The four little-endian bytes of a `u32`, `matrixCast<u8>` of a vector of `u32`. -/
def u32Bytes (w : BitVec 32) : Row :=
  [w.extractLsb' 0 8, w.extractLsb' 8 8, w.extractLsb' 16 8, w.extractLsb' 24 8]

/-- The inverse reinterpretation. -/
def bytesU32 : Row → Res (BitVec 32)
  | [a, b, c, d] => .ok (d ++ c ++ b ++ a)
  | _ => .error .ub

/-- A vector of `u32` as a matrix of 4-byte rows. -/
def u32Mat (v : List (BitVec 32)) : Mat Row := ⟨4, v.map u32Bytes⟩

/-- Back from a matrix of 4-byte rows. -/
def matU32 (m : Mat Row) : Res (List (BitVec 32)) := m.rows.mapM bytesU32

namespace ComposedPerm

/-- `ComposedPerm::compose`, ComposedPerm.h 71-83, run by both parties: `dst = *this o permShares`
where `s0`, `s1` are the XOR shares. -/
def composeBoth (c0 c1 : ComposedPerm) (s0 s1 : List (BitVec 32)) :
    Res (ComposedPerm × ComposedPerm × List (BitVec 32) × List (BitVec 32)) := do
  let (c0, c1, o0, o1) ← applyBoth c0 c1 .regular (u32Mat s0) (u32Mat s1)
  let d0 ← matU32 o0
  let d1 ← matU32 o1
  .ok (c0, c1, d0, d1)

/-- `ComposedPerm::derandomize`, ComposedPerm.cpp 44-101, run by both parties: `c1` takes the
branch `mPartyIdx != 0` and `c0` the other one. `s0`, `s1` are the shares of the new permutation.
If both have the same kind of index both wait for each other. -/
def derandomizeBoth (c0 c1 : ComposedPerm) (s0 s1 : List (BitVec 32)) :
    Res (ComposedPerm × ComposedPerm) := do
  if c0.idx != 0 || c1.idx == 0 then .error .diverge else
  let (snd1, rcv0, _, d1, d0) ←
    SecJoin.applyBoth c1.snd c0.rcv .inverse (u32Mat s0) (some (u32Mat s1))
  let d1 ← matU32 d1
  let d0 ← matU32 d0
  throwIf (d1.length != s0.length)
  let p0 : Perm := ⟨(List.zipWith (· ^^^ ·) d1 d0).map BitVec.toNat⟩
  let (snd0, msg) ← c0.snd.derandomize p0
  let rcv1 ← c1.rcv.derandomize msg
  .ok (⟨c0.idx, snd0, rcv0⟩, ⟨c1.idx, snd1, rcv1⟩)

/-- `genPerm(p, p0, p1, sizeBytes, prng)`, ComposedPerm.h 133-150. `draw` are the words used for
`sp0`, the matrices are the random fillings of the two inner `genPerm` calls. -/
def genPerm (p : Perm) (draw : Nat → Nat) (sizeBytes : Nat) (delta0 b0 delta1 b1 : List Row) :
    Res (ComposedPerm × ComposedPerm) := do
  let sp0 ← Perm.randomize draw p.size
  let inv ← sp0.inverse
  let sp1 ← p.compose inv
  let (s0, r0) ← SecJoin.genPerm sp0 sizeBytes delta0 b0
  let (s1, r1) ← SecJoin.genPerm sp1 sizeBytes delta1 b1
  .ok (⟨0, s0, r1⟩, ⟨1, s1, r0⟩)

/-- `validate(pi, comPerm0, comPerm1)`, ComposedPerm.h 153-165. -/
def validate (pi : Perm) (c0 c1 : ComposedPerm) : Res Unit := do
  throwIf (c0.idx != 0)
  throwIf (c1.idx != 1)
  let c ← c1.snd.perm.compose c0.snd.perm
  throwIf (pi != c)
  validateCor c0.snd c1.rcv
  validateCor c1.snd c0.rcv

end ComposedPerm
end SecJoin
